import Verif.Props.Rng
import Verif.Proof.Shuffle

/-!
# C178: shuffle can give every order

Full statement: every order of the elements of a vector is the result of `shuffle` for some states of the generator, and for the same
number of states, up to what the remainders of the draws make.
-/

namespace Rpp.Props
open Rpp.RNG Rpp.Spec Rpp.Math

/-- **C178, the choices.** The result is what the draws choose: the first among all elements, the next among the rest. -/
theorem C178_choices {α : Type} (l : List α) (h0 : l ≠ []) (hl : l.length < 2 ^ 64) (s : BitVec 64) :
    let ks := (draws (l.length - 1) s).mapIdx fun i x => x.toNat % (l.length - i)
    Choices l.length ks ∧ ∃ s', shuffle l s = .ok (deal ks l, s') := by
  have hpos : 0 < l.length := List.length_pos_iff.mpr h0
  have hd : ∀ (n : Nat) (s : BitVec 64), (draws n s).length = n := by
    intro n
    induction n with
    | zero => intro s; rfl
    | succ n ih => intro s; simp [draws, ih]
  refine ⟨⟨?_, fun i k hk => ?_⟩, ?_⟩
  · rw [List.length_mapIdx, hd]
    omega
  · obtain ⟨hi, rfl⟩ := List.getElem?_eq_some_iff.1 hk
    rw [List.length_mapIdx, hd] at hi
    rw [List.getElem_mapIdx]
    exact Nat.mod_lt _ (by omega)
  · obtain ⟨s', h⟩ := loop_deal (l.length - 1) [] l s (by omega) (by simpa using hl)
    refine ⟨s', ?_⟩
    unfold shuffle
    rw [show subw 64 l.length 1 = l.length - 1 by unfold subw; omega]
    simpa [show l.length - 1 + 1 = l.length by omega] using h

/-- **C178, no order is preferred by the choices.** Every order of different elements belongs to exactly one list of choices. -/
theorem C178_once {α : Type} (l l' : List α) (h0 : l ≠ []) (hd : l.Nodup) (hp : l'.Perm l) :
    ∃ ks, Choices l.length ks ∧ deal ks l = l' ∧ ∀ js, Choices l.length js → deal js l = l' → js = ks := by
  have hpos : 0 < l.length := List.length_pos_iff.mpr h0
  have := deal_once (l.length - 1) l l' (by omega) hd hp
  rwa [show l.length - 1 + 1 = l.length by omega] at this

/-- **C178, the front, partial.** Every element comes to the front for the same number of states, up to the remainder. Missing: the other
places together with it; the draws that follow are a function of the first one. -/
theorem C178_front_partial {α : Type} (l : List α) (hl : l.length < 2 ^ 64) (hd : l.Nodup) (h2 : 2 ≤ l.length) (k : Nat)
    (hk : k < l.length) :
    states (fun s => (shuffle l s).map (·.1.head?) = .ok (some l[k])) =
      2 ^ 64 / l.length + if k < 2 ^ 64 % l.length then 1 else 0 := by
  have hb : ∀ k : Nat, k < 2 ^ 64 → u64.has (k : Int) := by
    intro k hk
    rw [has_lo rfl]
    simp only [show u64.w = 64 from rfl]
    omega
  have hr := C146_range (t := u64) rfl (by decide) (by decide) (min := 0) (max := l.length) (hb 0 (by omega)) (hb _ hl) (by omega)
    l.length k (by omega) hk
  simp only [show u64.w = 64 from rfl, Nat.sub_self, Nat.pow_zero, Nat.one_mul] at hr
  refine Eq.trans (congrArg states (funext fun s => ?_)) hr
  rw [range_value (t := u64) (min := 0) (max := l.length) rfl (by decide) (hb 0 (by omega)) (hb _ hl) (by omega)]
  obtain ⟨-, s', e⟩ := C178_choices l (by intro h; rw [h] at h2; simp at h2) hl s
  rw [e]
  simp only [Except.map, Except.ok.injEq]
  rw [show ((l.length : Int) - 0).toNat = l.length by omega, show u64.w = 64 from rfl,
    Nat.mod_eq_of_lt (a := (next s).toNat) (next s).isLt]
  have hj : (next s).toNat % l.length < l.length := Nat.mod_lt _ (by omega)
  have front : (deal ((draws (l.length - 1) s).mapIdx fun i x => x.toNat % (l.length - i)) l).head? =
      l[(next s).toNat % l.length]? := by
    obtain ⟨m, hm⟩ : ∃ m, l.length - 1 = m + 1 := ⟨l.length - 2, by omega⟩
    rw [hm]
    simp only [draws, List.mapIdx_cons, Nat.sub_zero]
    generalize (next s).toNat % l.length = j at hj ⊢
    cases l with
    | nil => simp at h2
    | cons x xs =>
      cases j with
      | zero => rfl
      | succ j =>
        have hj' : j < xs.length := by simpa using hj
        simp [deal, List.getElem?_eq_getElem hj']
  rw [front, List.getElem?_eq_getElem hj]
  simp only [Option.some.injEq, List.Nodup.getElem_inj_iff hd]
  apply propext
  constructor <;> intro h <;> omega

/-- **C178 is false** of vectors of more than twenty different elements: there are more orders than states, and some order is the result
for none. -/
theorem C178_missing_false {α : Type} (l : List α) (hd : l.Nodup) (h21 : 21 ≤ l.length) :
    ∃ l', l'.Perm l ∧ ∀ s, (shuffle l s).map (·.1) ≠ .ok l' := by
  classical
  apply Classical.byContradiction
  intro hno
  have hall : ∀ l', l'.Perm l → ∃ s, (shuffle l s).map (·.1) = .ok l' := by
    intro l' hp
    apply Classical.byContradiction
    intro h
    exact hno ⟨l', hp, fun s hs => h ⟨s, hs⟩⟩
  have hsub : l.permutations.toFinset.image (fun l' => (Except.ok l' : Res (List α))) ⊆
      (Finset.univ : Finset (Fin (2 ^ 64))).image fun i => (shuffle l (BitVec.ofFin i)).map (·.1) := by
    intro r hr
    obtain ⟨l', hl', rfl⟩ := Finset.mem_image.1 hr
    obtain ⟨s, hs⟩ := hall l' (List.mem_permutations.1 (List.mem_toFinset.1 hl'))
    exact Finset.mem_image.2 ⟨s.toFin, Finset.mem_univ _, hs⟩
  have h1 := Finset.card_le_card hsub
  have h2 : ((Finset.univ : Finset (Fin (2 ^ 64))).image fun i => (shuffle l (BitVec.ofFin i)).map (·.1)).card ≤ 2 ^ 64 := by
    refine Finset.card_image_le.trans ?_
    rw [Finset.card_univ, Fintype.card_fin]
  have h3 : (l.permutations.toFinset.image (fun l' => (Except.ok l' : Res (List α)))).card = l.length.factorial := by
    rw [Finset.card_image_of_injective _ (fun a b h => by injection h), List.toFinset_card_of_nodup (List.nodup_permutations l hd),
      List.length_permutations]
  have h4 : (21).factorial ≤ l.length.factorial := Nat.factorial_le h21
  have h5 : 2 ^ 64 < (21).factorial := by decide +kernel
  omega

/-- Three elements: all six orders are results. -/
example : ((List.range 24).map fun s => (shuffle [1, 2, 3] (BitVec.ofNat 64 s)).toOption.map (·.1)).eraseDups.length = 6 ∧
    (shuffle [1, 2, 3] 0#64).toOption.map (·.1) = some (deal ((draws 2 0#64).mapIdx fun i x => x.toNat % (3 - i)) [1, 2, 3]) ∧
    deal [2, 1] [1, 2, 3] = [3, 1, 2] := by
  decide +kernel

/-- Twenty-one different elements. -/
example : (List.range 21).Nodup ∧ 21 ≤ (List.range 21).length := by decide +kernel

end Rpp.Props
