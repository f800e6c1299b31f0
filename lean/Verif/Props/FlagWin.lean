import Verif.Proof.FlagWin
import Verif.Props.Flag

/-!
# `Thread::Flag` on Windows (C105)
-/

namespace Rpp.Props
open Rpp Rpp.FlagWin

/-- What C105 asks of a run, as in `FlagSafe`; also, a completed signal is seen by `ready` from then on. -/
def FlagWinSafe (s : St) : Prop :=
  (0 < s.returned ∨ 0 < s.readies → 0 < s.set) ∧
  (0 < s.completed → ∀ t : Nat, s.thr[t]? ≠ some .asleep) ∧
  (0 < s.set → s.completed = 0 → ∃ u : Nat, s.thr[u]? = some .wake) ∧
  ∀ t, s.thr[t]? = some .idle → 0 < s.completed → (step s (.ready t)).map (fun s' => s'.readies) = .ok (s.readies + 1)

/-- The full statement of C105 (false, see `C105_false`): every schedule is safe. -/
def FlagWinFull : Prop := ∀ (n : Nat) (es : List Ev) (s : St), runAll step (St.init n) es = .ok s → FlagWinSafe s

/-- C105, for any number of threads and every schedule with fewer than 2^16 signals; every schedule goes through.
Missing: more signals. -/
theorem C105_safe_partial (n : Nat) (es : List Ev) (hc : es.countP isSignal < 2 ^ 16) :
    ∃ s, runAll step (St.init n) es = .ok s ∧ FlagWinSafe s := by
  obtain ⟨s, h⟩ := run_ok es (St.init n)
  refine ⟨s, h, ?_⟩
  obtain ⟨s', h1, h2, h3, h4⟩ := C53_safe_partial n (es.map absE) (by
    intro e he
    obtain ⟨x, _, rfl⟩ := List.mem_map.1 he
    exact calm x)
  rw [init_sim h hc] at h1
  cases h1
  refine ⟨h2, h3, h4, fun t ht hd => ?_⟩
  obtain ⟨hv, hs⟩ := run_value es _ s h rfl
  obtain ⟨s', h5, h6⟩ := runAll_inv_of Flag.step_inv (es.map absE) _ (by
    intro e he
    obtain ⟨x, _, rfl⟩ := List.mem_map.1 he
    exact calm x) (Flag.init_inv n)
  rw [init_sim h hc] at h5
  cases h5
  have h7 : s.value ≠ 0 := by
    have := h6.set_value.1 (by have := h6.bal; have h8 : 0 < (abs s).completed := hd; omega)
    simpa [abs] using this
  have e : step s (.ready t) = .ok { s with readies := s.readies + 1 } := by
    unfold step; dsimp only; rw [if_pos ⟨ht, h7⟩]
  rw [e]; rfl

/-- C105. When a signal has completed, every thread that is in `block`, or enters it later, is out of it after two steps
of its own, whatever the other threads do, if there are fewer than 2^16 signals in all. -/
theorem C105_returns_partial (n : Nat) (as bs : List Ev) (s : St) (t : Nat)
    (hs : runAll step (St.init n) as = .ok s) (hd : 0 < s.completed) (hc : (as ++ bs).countP isSignal < 2 ^ 16)
    (hb : Ev.block t ∉ bs) (h2 : 2 ≤ bs.count (.go t)) :
    ∃ s', runAll step (St.init n) (as ++ bs) = .ok s' ∧
      s'.thr[t]? ≠ some .load ∧ s'.thr[t]? ≠ some .wait ∧ s'.thr[t]? ≠ some .asleep := by
  obtain ⟨s', h⟩ := run_ok (as ++ bs) (St.init n)
  have hcalm : ∀ l : List Ev, ∀ e ∈ l.map absE, Flag.Calm e := by
    intro l e he
    obtain ⟨x, _, rfl⟩ := List.mem_map.1 he
    exact calm x
  have hca : as.countP isSignal < 2 ^ 16 := by
    rw [List.countP_append] at hc; omega
  obtain ⟨s'', h3, h4⟩ := C53_returns_partial n (as.map absE) (bs.map absE) (abs s) t (hcalm as) (init_sim hs hca) hd
    (hcalm bs) (by
      intro c
      obtain ⟨x, hx, e⟩ := List.mem_map.1 c
      cases x <;> simp [absE] at e
      subst e; exact hb hx)
    (by
      refine Nat.le_trans h2 ?_
      have : ∀ l : List Ev, l.count (.go t) ≤ (l.map absE).count (.go t) := by
        intro l
        induction l with
        | nil => simp
        | cons a r ih =>
          rw [List.map_cons, List.count_cons, List.count_cons]
          by_cases e : a = .go t
          · subst e; simpa [absE] using ih
          · have : (a == Ev.go t) = false := by simpa using e
            rw [this]; simp; omega
      exact this bs)
  rw [← List.map_append, init_sim h hc] at h3
  cases h3
  exact ⟨s', h, h4⟩

/-- After 2^16 signals the counter is back at zero: all of them have completed, yet `ready` denies it and a thread that
then calls `block` goes to sleep. -/
theorem C105_wraps (n : Nat) : ∃ s, runAll step (St.init (n + 2))
      ((List.replicate (2 ^ 16) [Ev.signal 0, Ev.go 0]).flatten ++ [.ready 1, .block 1, .go 1, .go 1]) = .ok s ∧
    s.completed = 2 ^ 16 ∧ s.readies = 0 ∧ s.thr[1]? = some .asleep := by
  have hz : BitVec.ofNat 16 (0 + 2 ^ 16) = 0 := by decide
  generalize 2 ^ 16 = k at hz ⊢
  obtain ⟨s, h1, h2, h3, h4, h5, h6, h7⟩ := many_signals (List.replicate (n + 1) .idle) k (St.init (n + 2)) rfl
    (fun p hp => List.eq_of_mem_replicate hp) rfl
  have hv : s.value = 0 := by rw [h5, h3]; exact hz
  have h1' : s.thr[1]? = some .idle := by rw [h2]; rfl
  rw [runAll_append step _ _ _ s h1]
  refine ⟨{ s with thr := ((s.thr.set 1 .load).set 1 .wait).set 1 .asleep }, ?_, ?_, ?_, ?_⟩
  · simp [runAll, step, h1', hv, h2]
  · dsimp only; rw [h4]; simp [St.init]
  · dsimp only; rw [h7]; rfl
  · dsimp only; rw [h2]; rfl

/-- C105 is false as stated. -/
theorem C105_false : ¬ FlagWinFull := by
  intro h
  obtain ⟨s, h1, h2, _, h3⟩ := C105_wraps 0
  exact (h 2 _ s h1).2.1 (by omega) 1 h3

/-- Two waiters, one asleep and one between the comparison and the system call, when the flag is signalled twice. -/
example : (runAll step (St.init 3)
    [.block 0, .go 0, .go 0, .block 1, .go 1, .signal 2, .go 1, .go 2, .signal 2, .go 0, .go 1, .go 2, .ready 2]).map
      (fun s => (s.thr, s.returned, s.readies, s.value)) = .ok ([.idle, .idle, .idle], 2, 1, 2) := by decide +kernel

end Rpp.Props
