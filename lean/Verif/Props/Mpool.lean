import Verif.Proof.Mpool

/-!
# Theorems about `Mpool`

Everything is stated for any number of threads and any schedule of their calls and steps from an empty pool.
-/

namespace Rpp.Props
open Rpp Rpp.Mp

/-- **C112.** No step goes wrong: every construction and destruction finds the memory as it should be, and
no link is read from a block in use. The objects handed out have different addresses, each holds the value it
was made with, and there is no other object in memory but those a thread is about to destroy. -/
theorem C112_safe (n : Nat) (es : List Ev) : ∃ s, runAll step (St.init n) es = .ok s ∧
    (s.objs.map Prod.fst).Nodup ∧ (∀ a v, (a, v) ∈ s.objs → s.mem a = some (.obj (some v))) ∧
    ∀ a v, s.mem a = some (.obj (some v)) → (a, v) ∈ s.objs ∨ ∃ t : Nat, s.thr[t]? = some (.dsDtor a) := by
  obtain ⟨s, F, h, I⟩ := run_ok n es
  refine ⟨s, h, ?_, fun a v hm => I.live _ hm, fun a v hm => I.object hm⟩
  rw [List.nodup_iff_count]
  intro a
  have := I.own a
  unfold tot at this
  have h2 : has (s.mem a) ≤ 1 := by unfold has; split <;> omega
  omega

/-- **C112.** A step keeps the value of every object that is not being destroyed. -/
theorem C112_kept (n : Nat) (es : List Ev) (s s' : St) (h : runAll step (St.init n) es = .ok s) (e : Ev)
    (h' : step s e = .ok s') (a v : Nat) (hm : (a, v) ∈ s.objs) (hd : ∀ t, e ≠ .destroy t a) :
    (a, v) ∈ s'.objs ∧ s'.mem a = some (.obj (some v)) := by
  obtain ⟨s1, F, h1, I⟩ := run_ok n es
  rw [h] at h1; cases h1
  obtain ⟨s2, F2, h2, I2⟩ := step_ok I e
  rw [h'] at h2; cases h2
  have key := step_keeps h' hm hd
  exact ⟨key, I2.live _ key⟩

/-- **C112.** No thread is stuck: whatever has happened, there is a way for all threads to finish what they
are doing, and then the objects are those there were and those being made, by their values. -/
theorem C112_finishes (n : Nat) (es : List Ev) (s : St) (h : runAll step (St.init n) es = .ok s) :
    ∃ gs s', (∀ e ∈ gs, ∃ t b, e = Ev.go t b) ∧ runAll step s gs = .ok s' ∧ (∀ p ∈ s'.thr, p = .idle) ∧
      ∀ v, (s'.objs.map Prod.snd).count v = vals s v := by
  obtain ⟨s1, F, h1, I⟩ := run_ok n es
  rw [h] at h1; cases h1
  obtain ⟨gs, s', h2, h3, h4, h5⟩ := finish _ I (Nat.le_refl _)
  refine ⟨gs, s', h2, h3, h4, fun v => ?_⟩
  rw [← h5 v]
  unfold vals
  have : ∀ (l : List Pc), (∀ p ∈ l, p = .idle) → (l.map (Pc.pend v)).sum = 0 := by
    intro l
    induction l with
    | nil => intro _; rfl
    | cons x l ih =>
      intro h
      rw [List.map_cons, List.sum_cons, ih (fun p hp => h p (.tail _ hp)), h x (.head _)]
      rfl
  rw [this _ h4]
  rfl

/-- **C112.** When all objects have been destroyed and no thread is in the pool, the finalizer gives back to
`Base` each block that was obtained from it, once. -/
theorem C112_all_returned (n : Nat) (es : List Ev) (s : St) (h : runAll step (St.init n) es = .ok s)
    (hi : ∀ p ∈ s.thr, p = .idle) (ho : s.objs = []) :
    ∃ fuel s', FList.clear s.toList fuel = .ok s' ∧ (∀ a, s'.mem a = none) ∧ s'.returned.Nodup ∧
      ∀ a, a ∈ s'.returned ↔ s.mem a ≠ none := by
  obtain ⟨s1, F, h1, I⟩ := run_ok n es
  rw [h] at h1; cases h1
  have L := I.toList hi ho
  obtain ⟨s', h2, h3, h4⟩ := FList.clear_ok L (F.length + 1) (Nat.lt_succ_self _)
  have hnil : s.toList.returned = [] := rfl
  rw [hnil, List.append_nil] at h4
  have hnd : F.Nodup := by have := L.nodup; rwa [List.map_nil, List.append_nil] at this
  refine ⟨_, s', h2, fun a => ?_, ?_, fun a => ?_⟩
  · apply Classical.byContradiction
    intro hc
    rcases h3.dom a hc with h5 | h5 <;> cases h5
  · rw [h4]; exact (List.reverse_perm F).nodup_iff.2 hnd
  · rw [h4, List.mem_reverse]
    constructor
    · intro hF hm
      exact (I.exclN hm).1 hF
    · intro hm
      rcases L.dom a hm with h5 | h5
      · exact h5
      · cases h5

/-- Two threads: one object is made and destroyed, then both threads make one at the same time. One of them gets
the block of the first object, the other waits for the lock and gets a new one. -/
example : (runAll step (St.init 2)
      ([.make 0 7] ++ List.replicate 5 (.go 0 100) ++ [.destroy 1 100] ++ List.replicate 5 (.go 1 0) ++
        [.make 0 8, .make 1 9, .go 1 0, .go 0 0, .go 1 0, .go 0 0, .go 1 0, .go 1 0, .go 0 0, .go 0 200,
          .go 0 0, .go 0 0, .go 1 0])).map (fun s => (s.objs, s.list, s.holder, s.thr)) =
    .ok ([(100, 9), (200, 8)], none, none, [.idle, .idle]) := by
  decide +kernel

end Rpp.Props
