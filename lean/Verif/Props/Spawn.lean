import Verif.Proof.Spawn

/-!
# `spawn`: theorems

The pieces are in `Props/Arc` and `Props/Promise`; here they are used together, by threads that only act on
handles they own.
-/

namespace Rpp.Props
open Rpp Rpp.Spawn

/-- C96: in every schedule no thread touches the promise after it is destroyed, although the one started and the one
that waits may each be the last: the promise stays as long as anybody holds a handle, in particular until
the thread started has left `fill`. The promise and the closure are destroyed and freed at most once, and
once the thread has ended, which has given up its handle then, and the handles are gone, exactly once. -/
theorem C96_spawn_lifetime (plain : Bool) (n v : Nat) (es : List Ev) :
    ∃ s, runAll (step plain) (St.init n v) es = .ok s ∧
      (0 < s.arc.handles → s.arc.alive = true ∧ s.arc.mem = true) ∧
      (s.w = .call → 0 < s.arc.handles) ∧
      s.arc.destructs ≤ 1 ∧ s.arc.frees ≤ s.arc.destructs ∧ s.dtors ≤ 1 ∧ s.frees ≤ s.dtors ∧
      (s.w = .ended → s.dtors = 1 ∧ s.frees = 1 ∧ s.arc.thr[0]? = some ⟨0, .idle⟩) ∧
      (s.arc.handles = 0 → (∀ t ∈ s.arc.thr, t.pc = .idle) → s.arc.destructs = 1 ∧ s.arc.frees = 1) := by
  obtain ⟨s, h1, I⟩ := runAll_inv (step_inv plain v) es _ (init_inv plain n v)
  obtain ⟨f1, f2, f3, f4⟩ := Arc.Inv.facts I.arc
  refine ⟨s, h1, fun h => ⟨(f1 h).1, (f1 h).2.1⟩, ?_, f3, f2, ?_, ?_, ?_, f4⟩
  · intro hw
    cases I.work with
    | call _ b =>
      have := le_sum Arc.Thr.handles s.arc.thr 0 _ b
      unfold Arc.St.handles
      simp only at this
      omega
    | dtor _ a => rw [hw] at a; cases a
    | ended a => rw [hw] at a; cases a
  · cases I.work <;> omega
  · cases I.work <;> omega
  · intro hw
    cases I.work with
    | call a => rw [hw] at a; cases a
    | dtor _ a => rw [hw] at a; cases a
    | ended _ _ c d e => exact ⟨d, e, c⟩

/-- C96: what `block` returns is the result of the function, for the first to ask, and for all if it is plain data. -/
theorem C96_result (plain : Bool) (n v : Nat) (es : List Ev) :
    ∃ s, runAll (step plain) (St.init n v) es = .ok s ∧ Promise.Slot.unset ∉ s.pr.got ∧
      (∀ x, s.pr.got.head? = some x → x = .full v) ∧ (plain = true → ∀ x ∈ s.pr.got, x = .full v) := by
  obtain ⟨s, h1, I⟩ := runAll_inv (step_inv plain v) es _ (init_inv plain n v)
  refine ⟨s, h1, ?_⟩
  have hg := I.pr.g
  generalize s.pr.slot = sl at hg
  generalize s.pr.got = gt at hg ⊢
  cases hg with
  | unset => simp
  | full => simp
  | plain k hk =>
    refine ⟨?_, ?_, ?_⟩
    · intro h; simp [List.mem_replicate] at h
    · intro x hx
      exact (List.mem_replicate.mp (List.mem_of_mem_head? hx)).2
    · intro _ x hx; exact (List.mem_replicate.mp hx).2
  | moved k hk =>
    subst hk
    refine ⟨?_, ?_, ?_⟩
    · intro h; simp [List.mem_replicate] at h
    · intro x hx; simp at hx; exact hx.symm
    · simp

/-- C96: the thread started needs seven steps of its own, whatever the others do: then the promise is filled, and its
closure destroyed and freed. -/
theorem C96_thread_ends (plain : Bool) (n v : Nat) (es : List Ev) (h7 : 7 ≤ es.count (.go 0)) :
    ∃ s, runAll (step plain) (St.init n v) es = .ok s ∧ s.w = .ended ∧ s.dtors = 1 ∧ s.frees = 1 ∧
      s.pr.flag.value = true ∧ s.pr.role[0]? = some .done := by
  obtain ⟨s, h1, I⟩ := runAll_inv (step_inv plain v) es _ (init_inv plain n v)
  have hd := runAll_drain (P := fun _ => True) (fun s e _ h => step_inv plain v s e h) todo (· == Ev.go 0)
    (fun s e s' _ h h7 => todo_step plain v s s' e h h7) es _ s (fun _ _ => trivial) (init_inv plain n v) h1
  have hc : es.countP (· == Ev.go 0) = es.count (Ev.go 0) := rfl
  have hi : todo (St.init n v) = 7 := rfl
  have h0 : todo s = 0 := by omega
  refine ⟨s, h1, ?_⟩
  cases I.work with
  | call a =>
    exfalso; unfold todo at h0; rw [a] at h0
    have := roleLeft_le s.pr.role[0]?
    simp only at h0
    omega
  | dtor _ a =>
    exfalso; unfold todo at h0; rw [a] at h0
    have := (dropLeft_le s.arc.thr[0]?).2
    simp only at h0
    omega
  | ended a b c d e =>
    refine ⟨a, d, e, ?_, b⟩
    rcases I.pr.z with q | q | q | q
    · rw [b] at q; cases q
    · rw [b] at q; cases q
    · rw [b] at q; cases q
    · exact I.pr.fi.set_value.1 (by have := I.pr.fi.bal; have := q.2; omega)

/-- C96: nobody waits for ever: once the thread started has made its seven steps, a thread in `block` returns after
three of its own, whatever happens in between. -/
theorem C96_block_returns (plain : Bool) (n v : Nat) (as bs : List Ev) (t : Nat) (h7 : 7 ≤ as.count (.go 0))
    (hb : Ev.block t ∉ bs) (h3 : 3 ≤ bs.count (.go t)) :
    ∃ s, runAll (step plain) (St.init n v) (as ++ bs) = .ok s ∧
      s.pr.role[t]? ≠ some .blocking ∧ s.pr.role[t]? ≠ some .take := by
  obtain ⟨s, h1, _, _, _, _, hdone⟩ := C96_thread_ends plain n v as h7
  obtain ⟨s0, h0, I⟩ := runAll_inv (step_inv plain v) as _ (init_inv plain n v)
  rw [h1] at h0; cases h0
  have hf : Promise.Filled s.pr := by
    rcases I.pr.z with q | q | q | q
    · rw [hdone] at q; cases q
    · rw [hdone] at q; cases q
    · rw [hdone] at q; cases q
    · exact q.2
  rw [runAll_append _ as bs _ s h1]
  have hstep : ∀ (s : St) (e : Ev), e ≠ .block t → Inv plain v s ∧ Promise.Filled s.pr →
      ∃ s', step plain s e = .ok s' ∧ Inv plain v s' ∧ Promise.Filled s'.pr := by
    intro s e _ h
    obtain ⟨s', a, b⟩ := step_inv plain v s e h.1
    refine ⟨s', a, b, ?_⟩
    rcases pr_step a with ⟨q, _⟩ | ⟨e', q, _⟩
    · rw [q]; exact h.2
    · exact Promise.filled_step plain _ _ _ h.2 q
  have hst : ∀ e ∈ bs, e ≠ .block t := fun e he c => hb (c ▸ he)
  obtain ⟨s', h4, h5⟩ := runAll_inv_of hstep bs s hst ⟨I, hf⟩
  refine ⟨s', h4, ?_⟩
  have h6 := runAll_drain hstep (fun s => Promise.left t s.pr) (· == Ev.go t)
    (fun s e s' he h h7 => by
      rcases pr_step h7 with ⟨q, hq⟩ | ⟨e', q, q2, q3⟩
      · rw [q]
        by_cases hg : e = .go t
        · have hb := hq t hg
          have : Promise.left t s.pr = 0 := by
            unfold Promise.left
            unfold busy at hb
            split
            · rename_i r; rw [r] at hb; cases hb
            · rename_i r; rw [r] at hb; cases hb
            · rfl
          omega
        · have : (e == Ev.go t) = false := by simpa using hg
          rw [this]; exact Nat.le_refl _
      · have := Promise.left_step plain v t s.pr s'.pr e' (fun c => he (q2 t c)) h.1.pr h.2 q
        by_cases hg : e = .go t
        · have hg' := q3 t hg
          subst hg hg'
          simpa using this
        · have hf : (e == Ev.go t) = false := by simpa using hg
          rw [hf]
          simp only [Bool.false_eq_true, if_false]
          omega) bs s s' hst ⟨I, hf⟩ h4
  have h7 : bs.countP (· == Ev.go t) = bs.count (Ev.go t) := rfl
  have h8 : Promise.left t s.pr ≤ 3 := by
    unfold Promise.left
    split
    · have : Flag.left t s.pr.flag ≤ 2 := by
        unfold Flag.left
        split
        · omega
        · omega
        · exact absurd (by assumption) (I.pr.fi.none_asleep hf t)
        · omega
      omega
    · omega
    · omega
  have h9 : Promise.left t s'.pr = 0 := by omega
  unfold Promise.left at h9
  refine ⟨fun c => ?_, fun c => ?_⟩ <;> rw [c] at h9 <;> simp at h9

/-- The waiting thread gets the value and drops its handle while the thread started is still waking it: the
latter destroys the promise, after that. -/
example : (runAll (step false) (St.init 1 7)
    [.block 1, .go 1, .go 1, .go 0, .go 0, .spurious 1, .go 1, .go 1, .drop 1]).map
      (fun s => (s.pr.got, s.pr.role, s.arc.refs, s.arc.alive)) =
    .ok ([.full 7], [.signalling, .done, .out], 1, true) := by decide +kernel

example : (runAll (step false) (St.init 1 7)
    [.block 1, .go 1, .go 1, .go 0, .go 0, .spurious 1, .go 1, .go 1, .drop 1, .go 0, .go 0, .go 0, .go 0, .go 0]).map
      (fun s => (s.w, s.arc.destructs, s.arc.frees, s.dtors, s.frees)) =
    .ok (.ended, 1, 1, 1, 1) := by decide +kernel

/-- The caller is last, after giving its handle to a third thread. -/
example : (runAll (step true) (St.init 1 7)
    [.give 1 2, .go 0, .go 0, .go 0, .go 0, .go 0, .go 0, .go 0, .block 2, .go 2, .go 2, .drop 2, .go 2, .go 2]).map
      (fun s => (s.w, s.pr.got, s.arc.destructs, s.arc.frees)) =
    .ok (.ended, [.full 7], 1, 1) := by decide +kernel

end Rpp.Props
