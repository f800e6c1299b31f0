import Verif.Spec.Lock
import Verif.Proof.Sched

/-!
# Locks: invariants
-/

namespace Rpp.Lock

open Rpp.Spec.Lock

/-- A mutex is locked exactly if one `Lock` holds it. -/
structure Inv (s : St) : Prop where
  held : ∀ h m, Holds s h m → ∃ t, s.owner m = some t
  one : ∀ h h' m, Holds s h m → Holds s h' m → h = h'
  some_ : ∀ m t, s.owner m = some t → ∃ h, Holds s h m

theorem inv_init : Inv init := ⟨fun _ _ h => (by cases h), fun _ _ _ h => (by cases h), fun _ _ h => (by cases h)⟩

theorem put_ref (s : St) (h k : Nat) (r : Option (Option Nat)) : (s.put h r).ref k = if k = h then r else s.ref k := rfl

theorem put_owner (s : St) (h : Nat) (r : Option (Option Nat)) : (s.put h r).owner = s.owner := rfl

/-- Moving a reference to an empty object keeps the invariant. -/
theorem inv_move {s : St} (hi : Inv s) {h src : Nat} {r : Option Nat} (hs : s.ref src = some r)
    (hh : ∀ m, ¬ Holds s h m) : Inv ((s.put h (some r)).put src (some none)) ∨ h = src := by
  by_cases hne : h = src
  · exact .inr hne
  refine .inl ⟨?_, ?_, ?_⟩
  · intro k m hk
    simp only [Holds, put_ref, put_owner] at hk ⊢
    split at hk
    · cases hk
    · split at hk
      · exact hi.held src m (by rw [Holds, hs, ← hk])
      · exact hi.held k m hk
  · intro k k' m hk hk'
    simp only [Holds, put_ref] at hk hk'
    have key : ∀ {k}, (if k = src then (some none : Option (Option Nat)) else if k = h then some r else s.ref k) = some (some m) →
        (k = h ∧ Holds s src m) ∨ (k ≠ h ∧ k ≠ src ∧ Holds s k m) := by
      intro k hk
      split at hk
      · cases hk
      · split at hk
        · exact .inl ⟨by assumption, by rw [Holds, hs, ← hk]⟩
        · exact .inr ⟨by assumption, by assumption, hk⟩
    rcases key hk with ⟨e, a⟩ | ⟨e, e2, a⟩ <;> rcases key hk' with ⟨e', a'⟩ | ⟨e', e2', a'⟩
    · rw [e, e']
    · exact absurd (hi.one _ _ _ a a').symm e2'
    · exact absurd (hi.one _ _ _ a a') e2
    · exact hi.one _ _ _ a a'
  · intro m t hm
    simp only [put_owner] at hm
    obtain ⟨k, hk⟩ := hi.some_ m t hm
    by_cases hks : k = src
    · refine ⟨h, ?_⟩
      subst hks
      simp only [Holds, put_ref]
      rw [if_neg hne, if_pos trivial, ← hs]
      exact hk
    · have hkh : k ≠ h := fun e => hh m (e ▸ hk)
      refine ⟨k, ?_⟩
      simp only [Holds, put_ref]
      rw [if_neg hks, if_neg hkh]
      exact hk

theorem step_careful {s : St} (hi : Inv s) {e : Nat × Op} (hc : Careful s e) : ∃ s', step s e = .ok s' ∧ Inv s' := by
  obtain ⟨t, op⟩ := e
  cases op with
  | make h m =>
    obtain ⟨h1, h2⟩ := hc
    unfold step
    simp only
    rw [if_pos h1]
    unfold lock
    cases ho : s.owner m with
    | some u =>
      have : u ≠ t := fun e => h2 (by rw [ho, e])
      simp only [if_neg this]
      exact ⟨s, rfl, hi⟩
    | none =>
      simp only
      refine ⟨_, rfl, ?_, ?_, ?_⟩
      · intro k m' hk
        simp only [Holds, put_ref, put_owner] at hk ⊢
        by_cases hm : m' = m
        · exact ⟨t, if_pos hm⟩
        · rw [if_neg hm]
          split at hk
          · cases hk; exact absurd rfl hm
          · exact hi.held k m' hk
      · intro k k' m' hk hk'
        simp only [Holds, put_ref] at hk hk'
        have no : ∀ k, Holds s k m → False := fun k hk => by
          obtain ⟨t', ht⟩ := hi.held k m hk
          rw [ho] at ht; cases ht
        split at hk
        · split at hk'
          · rw [‹k = h›, ‹k' = h›]
          · cases hk; exact (no _ hk').elim
        · split at hk'
          · cases hk'; exact (no _ hk).elim
          · exact hi.one _ _ _ hk hk'
      · intro m' t' hm
        simp only [put_owner] at hm
        by_cases hmm : m' = m
        · exact ⟨h, by simp only [Holds, put_ref]; rw [if_pos trivial, hmm]⟩
        · rw [if_neg hmm] at hm
          obtain ⟨k, hk⟩ := hi.some_ m' t' hm
          refine ⟨k, ?_⟩
          have : k ≠ h := fun e => by rw [e, Holds, h1] at hk; cases hk
          simp only [Holds, put_ref]
          rw [if_neg this]
          exact hk
  | moveNew h src =>
    obtain ⟨h1, h2, h3⟩ := hc
    unfold step
    simp only
    rw [if_pos h1]
    cases hs : s.ref src with
    | none => exact absurd hs h2
    | some r =>
      refine ⟨_, rfl, ?_⟩
      rcases inv_move hi hs (h := h) (fun m hm => by rw [Holds, h1] at hm; cases hm) with hi' | e
      · exact hi'
      · rw [e, hs] at h1; cases h1
  | assign h src =>
    obtain ⟨h1, h2, h3⟩ := hc
    unfold step
    simp only [h1]
    cases hs : s.ref src with
    | none => exact absurd hs h2
    | some r =>
      refine ⟨_, rfl, ?_⟩
      rcases inv_move hi hs (h := h) (fun m hm => by rw [Holds, h1] at hm; cases hm) with hi' | e
      · exact hi'
      · subst e
        rw [h1] at hs
        cases hs
        have : ((s.put h (some none)).put h (some none)) = s := by
          unfold St.put
          obtain ⟨o, rf⟩ := s
          simp only [St.mk.injEq, true_and]
          funext k
          split
          · rw [‹k = h›]; exact h1.symm
          · rfl
        rw [this]
        exact hi
  | drop h =>
    obtain ⟨h1, h2⟩ := hc
    unfold step
    simp only
    cases hr : s.ref h with
    | none => exact absurd hr h1
    | some r =>
      cases r with
      | none =>
        refine ⟨_, rfl, ?_, ?_, ?_⟩
        · intro k m hk
          simp only [Holds, put_ref, put_owner] at hk ⊢
          split at hk
          · cases hk
          · exact hi.held k m hk
        · intro k k' m hk hk'
          simp only [Holds, put_ref] at hk hk'
          split at hk
          · cases hk
          · split at hk'
            · cases hk'
            · exact hi.one _ _ _ hk hk'
        · intro m t' hm
          obtain ⟨k, hk⟩ := hi.some_ m t' hm
          refine ⟨k, ?_⟩
          have : k ≠ h := fun e => by rw [e, Holds, hr] at hk; cases hk
          simp only [Holds, put_ref]
          rw [if_neg this]
          exact hk
      | some m =>
        simp only [unlock, if_pos (h2 m hr)]
        refine ⟨_, rfl, ?_, ?_, ?_⟩
        · intro k m' hk
          simp only [Holds, put_ref, put_owner] at hk ⊢
          split at hk
          · cases hk
          · rename_i hkh
            have : m' ≠ m := fun e => hkh (hi.one k h m (e ▸ hk) hr)
            rw [if_neg this]
            exact hi.held k m' hk
        · intro k k' m' hk hk'
          simp only [Holds, put_ref] at hk hk'
          split at hk
          · cases hk
          · split at hk'
            · cases hk'
            · exact hi.one _ _ _ hk hk'
        · intro m' t' hm
          simp only [put_owner] at hm
          split at hm
          · cases hm
          · rename_i hmm
            obtain ⟨k, hk⟩ := hi.some_ m' t' hm
            refine ⟨k, ?_⟩
            have : k ≠ h := fun e => by rw [e, Holds, hr] at hk; cases hk; exact hmm rfl
            simp only [Holds, put_ref]
            rw [if_neg this]
            exact hk

theorem run_careful : ∀ (es : List (Nat × Op)) {s : St}, Inv s → CarefulAll s es → ∃ s', runAll step s es = .ok s' ∧ Inv s'
  | [], s, hi, _ => ⟨s, rfl, hi⟩
  | e :: es, s, hi, hc => by
    obtain ⟨s1, h1, hi1⟩ := step_careful hi hc.1
    obtain ⟨s2, h2, hi2⟩ := run_careful es hi1 (hc.2 s1 h1)
    refine ⟨s2, ?_, hi2⟩
    rw [runAll, h1]
    exact h2

/-- A mutex locked without a `Lock` that holds it. -/
def Lost (s : St) (m t : Nat) : Prop := s.owner m = some t ∧ ∀ h, ¬ Holds s h m

theorem lost_step {s s' : St} {m t : Nat} (hl : Lost s m t) {e : Nat × Op} (h : step s e = .ok s') : Lost s' m t := by
  obtain ⟨u, op⟩ := e
  have mv : ∀ {h src r}, s.ref src = some r → Lost ((s.put h (some r)).put src (some none)) m t := by
    intro h src r hs
    refine ⟨hl.1, fun k hk => ?_⟩
    simp only [Holds, put_ref] at hk
    split at hk
    · cases hk
    · split at hk
      · exact hl.2 src (by rw [Holds, hs, ← hk])
      · exact hl.2 k hk
  cases op with
  | make hd m' =>
    unfold step at h
    simp only at h
    split at h
    · unfold lock at h
      cases ho : s.owner m' with
      | some v =>
        rw [ho] at h
        simp only at h
        split at h
        · next he => split at he <;> cases he; cases h
        · next he => split at he <;> cases he; cases h; exact hl
        · next he => split at he <;> cases he
      | none =>
        rw [ho] at h
        simp only [Except.ok.injEq] at h
        subst h
        have hm : m ≠ m' := fun e => by rw [← e, hl.1] at ho; cases ho
        refine ⟨?_, fun k hk => ?_⟩
        · simp only [put_owner]
          rw [if_neg hm]
          exact hl.1
        · simp only [Holds, put_ref] at hk
          split at hk
          · cases hk; exact hm rfl
          · exact hl.2 k hk
    · cases h
  | moveNew hd src =>
    unfold step at h
    simp only at h
    split at h
    · cases hs : s.ref src with
      | none => rw [hs] at h; cases h
      | some r => rw [hs] at h; cases h; exact mv hs
    · cases h
  | assign hd src =>
    unfold step at h
    simp only at h
    cases hd' : s.ref hd with
    | none => rw [hd'] at h; cases h
    | some q =>
      cases hs : s.ref src with
      | none => rw [hd', hs] at h; cases h
      | some r => rw [hd', hs] at h; cases h; exact mv hs
  | drop hd =>
    unfold step at h
    simp only at h
    have dr : ∀ (s1 : St), s1.owner m = some t → s1.ref = s.ref → Lost (s1.put hd none) m t := by
      intro s1 h1 h2
      refine ⟨h1, fun k hk => ?_⟩
      simp only [Holds, put_ref] at hk
      split at hk
      · cases hk
      · rw [h2] at hk; exact hl.2 k hk
    cases hr : s.ref hd with
    | none => rw [hr] at h; cases h
    | some r =>
      rw [hr] at h
      cases r with
      | none => cases h; exact dr s hl.1 rfl
      | some m' =>
        simp only [unlock] at h
        have hm : m ≠ m' := fun e => hl.2 hd (by rw [Holds, hr, e])
        by_cases ho : s.owner m' = some u
        · rw [if_pos ho] at h
          simp only [Except.ok.injEq] at h
          subst h
          refine dr _ ?_ rfl
          simp only
          rw [if_neg hm]
          exact hl.1
        · rw [if_neg ho] at h; cases h

theorem lost_run : ∀ (es : List (Nat × Op)) {s s' : St} {m t : Nat}, Lost s m t → runAll step s es = .ok s' → Lost s' m t
  | [], s, s', m, t, hl, h => by cases h; exact hl
  | e :: es, s, s', m, t, hl, h => by
    rw [runAll] at h
    cases h1 : step s e with
    | error x => rw [h1] at h; cases h
    | ok s1 => rw [h1] at h; exact lost_run es (lost_step hl h1) h

end Rpp.Lock
