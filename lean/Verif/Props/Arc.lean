import Verif.Proof.Arc

/-!
# `Arc` under every schedule (C50)
-/

namespace Rpp.Props
open Rpp Rpp.Arc

/-- C50. Whatever `n + 1` threads do with the handles, in whatever order: no thread touches the block after it
was freed or the value after it was destructed (the run does not end in `ub`); as long as a handle is left
the value is neither destructed nor freed; the value is destructed at most once and the block freed at
most once, in this order; and when no handle is left and every thread has finished its `drop`, both have
happened exactly once. The count is always the number of handles. -/
theorem C50_arc (n : Nat) (es : List Ev) :
    ∃ s, runAll step (St.init n) es = .ok s ∧
      s.refs = s.handles ∧
      (0 < s.handles → s.alive = true ∧ s.mem = true ∧ s.destructs = 0 ∧ s.frees = 0) ∧
      s.frees ≤ s.destructs ∧ s.destructs ≤ 1 ∧
      (s.handles = 0 → (∀ t ∈ s.thr, t.pc = .idle) → s.destructs = 1 ∧ s.frees = 1) := by
  obtain ⟨s, h1, h2, h3⟩ := runAll_inv step_inv es _ (init_inv n)
  exact ⟨s, h1, h2, (Inv.facts ⟨h2, h3⟩)⟩

/-- C50. The value really is destroyed: a thread that dropped the last handle (it is destructing the value
then) has finished after two steps of its own, whatever happens in between, with the value destructed and
the block freed once. -/
theorem C50_finishes (n : Nat) (as bs : List Ev) (s : St) (t h : Nat)
    (hs : runAll step (St.init n) as = .ok s) (ht : s.thr[t]? = some ⟨h, .destruct⟩)
    (hb : 2 ≤ bs.count (.go t)) :
    ∃ s', runAll step (St.init n) (as ++ bs) = .ok s' ∧ s'.destructs = 1 ∧ s'.frees = 1 := by
  obtain ⟨s0, h0, h2⟩ := runAll_inv step_inv as _ (init_inv n)
  rw [hs] at h0; cases h0
  have hl : Last t s := by
    cases h2.2 with
    | live _ _ _ _ _ f => have := f _ _ ht; cases this
    | destruct i m a b c d f g k =>
      have e : t = i := by
        by_cases e : t = i
        · exact e
        · have := k t _ e ht; cases this
      subst e
      refine ⟨h2, a, fun u r hu hr => ?_⟩
      by_cases e : u = t
      · exact e
      · exact absurd (k u r e hu) hr
    | free i m a b c d f g k =>
      by_cases e : t = i
      · subst e; rw [g] at ht; cases ht
      · have := k t _ e ht; cases this
    | gone _ _ _ _ _ f => have := f _ _ ht; cases this
  rw [runAll_append step as bs _ s hs]
  have hstep : ∀ (s : St) (e : Ev), True → Last t s → ∃ s', step s e = .ok s' ∧ Last t s' :=
    fun s e _ h => by obtain ⟨s', a, b, _⟩ := last_step t s e h; exact ⟨s', a, b⟩
  obtain ⟨s', h3, h4⟩ := runAll_inv_of hstep bs s (fun _ _ => trivial) hl
  refine ⟨s', h3, ?_⟩
  have h5 := runAll_drain hstep (fun s => (1 - s.destructs) + (1 - s.frees)) (· == Ev.go t)
    (fun s e s' _ h h6 => by
      obtain ⟨s1, a, _, b⟩ := last_step t s e h
      rw [a] at h6; cases h6; exact b) bs s s' (fun _ _ => trivial) hl h3
  have h6 : bs.countP (· == Ev.go t) = bs.count (Ev.go t) := rfl
  rw [h6] at h5
  obtain ⟨_, h7, h8, _⟩ := h4.1.facts
  have h9 : s.destructs ≤ 1 ∧ s.frees ≤ 1 := by have := h2.facts; omega
  omega

/-- Three threads, the handles passed around, the last drop racing with a use elsewhere. -/
example : (runAll step (St.init 2)
    [.dup 0, .give 0 1, .dup 1, .give 1 2, .drop 0, .use 2, .drop 1, .use 2, .drop 2, .go 2]).map
      (fun s => (s.refs, s.destructs, s.frees, s.mem)) = .ok (0, 1, 0, true) := by decide +kernel
example : (runAll step (St.init 2)
    [.dup 0, .give 0 1, .drop 0, .drop 1, .go 1, .use 0, .go 1, .dup 0, .drop 1]).map
      (fun s => (s.refs, s.destructs, s.frees, s.mem)) = .ok (0, 1, 1, false) := by decide +kernel
/-- The hypotheses of the second statement are met in a reachable state. -/
example : (runAll step (St.init 1) [.give 0 1, .drop 1]).map
    (fun s => (s.thr[1]?, s.mem, s.alive)) = .ok (some ⟨0, .destruct⟩, true, true) := by decide +kernel

end Rpp.Props
