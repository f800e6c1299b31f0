import Verif.Proof.Promise

/-!
# `Thread::Promise` (C54)
-/

namespace Rpp.Props
open Rpp Rpp.Promise

/-- The full statement of C54 (false, see `C54_false`): in every schedule every value returned by `block` is the one
filled in. -/
def PromiseFull : Prop := ∀ (plain : Bool) (n v : Nat) (es : List Ev),
  ∃ s, runAll (step plain) (St.init n v) es = .ok s ∧ ∀ x ∈ s.got, x = .full v

/-- C54. In every schedule, with any number of threads blocking, nobody reads the slot before it is filled and the
first value returned is the one filled in. For plain data every value returned is; for an owning type
those after the first get what a move left behind. Missing: more than one reader of an owning type. -/
theorem C54_value_partial (plain : Bool) (n v : Nat) (es : List Ev) :
    ∃ s, runAll (step plain) (St.init n v) es = .ok s ∧ .unset ∉ s.got ∧
      (∀ x, s.got.head? = some x → x = .full v) ∧
      (plain = true → ∀ x ∈ s.got, x = .full v) ∧
      (s.got.length ≤ 1 → ∀ x ∈ s.got, x = .full v) := by
  obtain ⟨s, h1, h2⟩ := runAll_inv (step_inv plain v) es _ (init_inv plain n v)
  refine ⟨s, h1, ?_⟩
  have hg := h2.g
  generalize s.slot = sl at hg
  generalize s.got = gt at hg ⊢
  cases hg with
  | unset => simp
  | full => simp
  | plain k hk =>
    refine ⟨?_, ?_, ?_, ?_⟩
    · intro h; simp [List.mem_replicate] at h
    · intro x hx
      have := List.mem_of_mem_head? hx
      exact (List.mem_replicate.mp this).2
    · intro _ x hx; exact (List.mem_replicate.mp hx).2
    · intro _ x hx; exact (List.mem_replicate.mp hx).2
  | moved k hk =>
    subst hk
    refine ⟨?_, ?_, ?_, ?_⟩
    · intro h; simp [List.mem_replicate] at h
    · intro x hx; simp at hx; exact hx.symm
    · simp
    · intro hl x hx
      simp at hl
      subst hl
      simpa using hx

/-- Exactly: of an owning type the first that returns gets the value and all others get what a move left behind, in every
schedule. -/
theorem C54_first_only (n v : Nat) (es : List Ev) :
    ∃ s, runAll (step false) (St.init n v) es = .ok s ∧
      (s.got = [] ∨ ∃ k, s.got = .full v :: List.replicate k .moved) := by
  obtain ⟨s, h1, h2⟩ := runAll_inv (step_inv false v) es _ (init_inv false n v)
  refine ⟨s, h1, ?_⟩
  have hg := h2.g
  generalize s.slot = sl at hg
  generalize s.got = gt at hg ⊢
  cases hg with
  | unset => exact .inl rfl
  | full => exact .inl rfl
  | plain k hk => cases hk
  | moved k hk => exact .inr ⟨k, rfl⟩

/-- C54. When `fill` has returned (thread 0 is done after `as`), every thread in `block` has returned after three
steps of its own, whatever the others do in between. -/
theorem C54_returns (plain : Bool) (n v : Nat) (as bs : List Ev) (s : St) (t : Nat)
    (hs : runAll (step plain) (St.init n v) as = .ok s) (hd : s.role[0]? = some .done)
    (hb : Ev.block t ∉ bs) (h3 : 3 ≤ bs.count (.go t)) :
    ∃ s', runAll (step plain) (St.init n v) (as ++ bs) = .ok s' ∧
      s'.role[t]? ≠ some .blocking ∧ s'.role[t]? ≠ some .take := by
  obtain ⟨s0, h0, hi⟩ := runAll_inv (step_inv plain v) as _ (init_inv plain n v)
  rw [hs] at h0; cases h0
  have hf : Filled s := by
    rcases hi.z with b | b | b | b
    · rw [hd] at b; cases b
    · rw [hd] at b; cases b
    · rw [hd] at b; cases b
    · exact b.2
  rw [runAll_append _ as bs _ s hs]
  have hstep : ∀ (s : St) (e : Ev), e ≠ .block t → Inv plain v s ∧ Filled s →
      ∃ s', step plain s e = .ok s' ∧ Inv plain v s' ∧ Filled s' := by
    intro s e _ h
    obtain ⟨s', a, b⟩ := step_inv plain v s e h.1
    exact ⟨s', a, b, filled_step plain s s' e h.2 a⟩
  have hst : ∀ e ∈ bs, e ≠ .block t := fun e he c => hb (c ▸ he)
  obtain ⟨s', h4, h5⟩ := runAll_inv_of hstep bs s hst ⟨hi, hf⟩
  refine ⟨s', h4, ?_⟩
  have h6 := runAll_drain hstep (left t) (· == Ev.go t)
    (fun s e s' he h h7 => left_step plain v t s s' e he h.1 h.2 h7) bs s s' hst ⟨hi, hf⟩ h4
  have h7 : bs.countP (· == Ev.go t) = bs.count (Ev.go t) := rfl
  have h8 : left t s ≤ 3 := by
    unfold left
    split
    · have : Flag.left t s.flag ≤ 2 := by
        unfold Flag.left
        split
        · omega
        · omega
        · exact absurd (by assumption) (hi.fi.none_asleep hf t)
        · omega
      omega
    · omega
    · omega
  have h9 : left t s' = 0 := by omega
  unfold left at h9
  refine ⟨fun c => ?_, fun c => ?_⟩ <;> rw [c] at h9 <;> simp at h9

/-- C54 is false as stated: two threads that block on a promise of an owning type do not both get the value. -/
theorem C54_false : ¬ PromiseFull := by
  intro h
  obtain ⟨s, h1, h2⟩ := h false 2 7 [.go 0, .go 0, .go 0, .block 1, .go 1, .go 1, .block 2, .go 2, .go 2]
  have : (runAll (step false) (St.init 2 7)
      [.go 0, .go 0, .go 0, .block 1, .go 1, .go 1, .block 2, .go 2, .go 2]).map (·.got)
      = .ok [.full 7, .moved] := by decide +kernel
  rw [h1] at this
  injection this with this
  have this : s.got = [.full 7, .moved] := this
  have h3 := h2 .moved (by rw [this]; simp)
  cases h3

/-- One reader that was asleep when the value came. -/
example : (runAll (step false) (St.init 1 7)
    [.block 1, .go 1, .go 1, .go 0, .go 0, .spurious 1, .go 1, .go 0, .go 1]).map (fun s => (s.got, s.slot))
      = .ok ([.full 7], .moved) := by decide +kernel
/-- Two readers of plain data. -/
example : (runAll (step true) (St.init 2 7)
    [.block 1, .go 1, .go 0, .go 0, .go 1, .go 1, .go 1, .block 2, .go 2, .go 0, .go 2]).map (·.got)
      = .ok [.full 7, .full 7] := by decide +kernel
/-- The hypotheses of the second statement are met with a thread in `block`. -/
example : (runAll (step false) (St.init 1 7) [.block 1, .go 1, .go 0, .go 0, .go 0]).map (·.role)
    = .ok [.done, .blocking] := by decide +kernel

end Rpp.Props
