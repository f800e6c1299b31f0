import Verif.Spec.Shuffle
import Verif.Model.Rng
import Verif.Proof.Rng
import Mathlib.Data.List.Permutation
import Mathlib.Data.Fintype.Card

/-! Lemmas about shuffling. -/

namespace Rpp.RNG
open Rpp.Spec Rpp.Math

/-- One round, as a step of `deal`. -/
theorem round_ok {α : Type _} (pre xs : List α) (x : α) (hl : (pre ++ x :: xs).length < 2 ^ 64) (s : BitVec 64) :
    ∃ y ys, (do
        let (j, s) ← range u64 pre.length (pre ++ x :: xs).length s
        let l ← swapAt (pre ++ x :: xs) pre.length j.toNat
        pure (l, s) : Res (List α × BitVec 64)) = .ok (pre ++ y :: ys, next s) ∧ ys.length = xs.length ∧
      ∀ ks, deal ((next s).toNat % (xs.length + 1) :: ks) (x :: xs) = y :: deal ks ys := by
  have hb : ∀ k : Nat, k < 2 ^ 64 → u64.has (k : Int) := by
    intro k hk
    rw [has_lo rfl]
    simp only [show u64.w = 64 from rfl]
    omega
  have hlen : (pre ++ x :: xs).length = pre.length + (xs.length + 1) := by simp
  have hr := range_value (t := u64) rfl (by decide) (hb pre.length (by omega)) (hb _ hl) (by omega) s
  rw [show (((pre ++ x :: xs).length : Int) - (pre.length : Int)).toNat = xs.length + 1 by omega, show u64.w = 64 from rfl,
    Nat.mod_eq_of_lt (a := (next s).toNat) (next s).isLt] at hr
  rw [hr]
  generalize hk : (next s).toNat % (xs.length + 1) = k
  have hkl : k < xs.length + 1 := by rw [← hk]; exact Nat.mod_lt _ (by omega)
  dsimp only [bind, Except.bind, pure, Except.pure]
  rw [show ((pre.length : Int) + (k : Int)).toNat = pre.length + k by omega]
  unfold swapAt
  rw [List.getElem?_append_right (Nat.le_refl _), Nat.sub_self, List.getElem?_append_right (by omega),
    show pre.length + k - pre.length = k by omega]
  cases k with
  | zero =>
    refine ⟨x, xs, ?_, rfl, fun ks => rfl⟩
    simp
  | succ k =>
    have hk' : k < xs.length := by omega
    refine ⟨xs[k], xs.set k x, ?_, by simp, fun ks => ?_⟩
    · simp [List.getElem?_eq_getElem hk', List.set_append_right]
    · simp only [deal, List.getElem?_eq_getElem hk']

theorem loop_deal {α : Type _} : ∀ (n : Nat) (pre l : List α) (s : BitVec 64), l.length = n + 1 → (pre ++ l).length < 2 ^ 64 →
    ∃ s', shuffleLoop n pre.length (pre ++ l) s =
      .ok (pre ++ deal ((draws n s).mapIdx fun i x => x.toNat % (n + 1 - i)) l, s') := by
  intro n
  induction n with
  | zero => intro pre l s _ _; exact ⟨s, rfl⟩
  | succ n ih =>
    intro pre l s hn hl
    cases l with
    | nil => simp at hn
    | cons x xs =>
      obtain ⟨y, ys, e, hy, hd⟩ := round_ok pre xs x hl s
      have hxs : xs.length = n + 1 := by simpa using hn
      have hlen : (pre ++ x :: xs).length = (pre ++ y :: ys).length := by simp [hy]
      obtain ⟨s', hs'⟩ := ih (pre ++ [y]) ys (next s) (by omega) (by simpa [hy] using hl)
      refine ⟨s', ?_⟩
      have step : shuffleLoop (n + 1) pre.length (pre ++ x :: xs) s = shuffleLoop n (pre.length + 1) (pre ++ y :: ys) (next s) := by
        conv_lhs => unfold shuffleLoop
        cases hr : range u64 (pre.length : Int) ((pre ++ x :: xs).length : Int) s with
        | error er => rw [hr] at e; cases e
        | ok r =>
          rw [hr] at e
          dsimp only [bind, Except.bind, pure, Except.pure] at e ⊢
          cases hw : swapAt (pre ++ x :: xs) pre.length r.1.toNat with
          | error er => rw [hw] at e; cases e
          | ok r2 =>
            rw [hw] at e
            dsimp only at e ⊢
            injection e with e
            injection e with e1 e2
            rw [e1, e2]
      rw [step]
      rw [List.append_assoc] at hs'
      simp only [List.length_append, List.length_singleton, List.singleton_append] at hs'
      rw [hs']
      have := hd ((draws n (next s)).mapIdx fun i x => x.toNat % (n + 1 - i))
      rw [hxs] at this
      simp only [draws, List.mapIdx_cons, Nat.sub_zero, Nat.add_sub_add_right]
      rw [this, List.append_assoc]
      rfl

end Rpp.RNG

namespace Rpp.Spec

theorem choices_cons {n k : Nat} {ks : List Nat} : Choices (n + 1) (k :: ks) ↔ k < n + 1 ∧ Choices n ks := by
  unfold Choices
  constructor
  · rintro ⟨h1, h2⟩
    refine ⟨by simpa using h2 0 k rfl, by simpa using h1, fun i j h => ?_⟩
    have := h2 (i + 1) j (by simpa using h)
    omega
  · rintro ⟨h1, h2, h3⟩
    refine ⟨by simpa using h2, fun i j h => ?_⟩
    cases i with
    | zero =>
      simp at h
      omega
    | succ i =>
      have := h3 i j (by simpa using h)
      omega

theorem deal_perm {α : Type _} : ∀ (ks : List Nat) (l : List α), (deal ks l).Perm l := by
  intro ks
  induction ks with
  | nil => exact fun l => .refl _
  | cons k ks ih =>
    intro l
    cases l with
    | nil => exact .refl _
    | cons x xs =>
      cases k with
      | zero => exact (ih xs).cons x
      | succ k =>
        unfold deal
        cases h : xs[k]? with
        | none => exact .refl _
        | some y =>
          obtain ⟨hk, hy⟩ := List.getElem?_eq_some_iff.1 h
          refine ((ih _).cons y).trans ?_
          exact perm_set hk hy
where
  perm_set {α : Type _} {xs : List α} {x y : α} {k : Nat} (hk : k < xs.length) (hy : xs[k] = y) :
      (y :: xs.set k x).Perm (x :: xs) := by
    induction xs generalizing k with
    | nil => simp at hk
    | cons a as ih =>
      cases k with
      | zero =>
        simp at hy
        subst hy
        exact .swap _ _ _
      | succ k =>
        have := ih (k := k) (by simpa using hk) (by simpa using hy)
        exact (List.Perm.swap a y _).trans ((this.cons a).trans (.swap x a _))

/-- Every order of different elements comes from exactly one list of choices. -/
theorem deal_once {α : Type _} : ∀ (n : Nat) (l l' : List α), l.length = n + 1 → l.Nodup → l'.Perm l →
    ∃ ks, Choices (n + 1) ks ∧ deal ks l = l' ∧ ∀ js, Choices (n + 1) js → deal js l = l' → js = ks := by
  intro n
  induction n with
  | zero =>
    intro l l' hl _ hp
    obtain ⟨x, rfl⟩ := List.length_eq_one_iff.1 hl
    rw [List.perm_singleton] at hp
    refine ⟨[], ⟨rfl, fun i k h => by simp at h⟩, hp.symm, fun js hj _ => ?_⟩
    have := hj.1
    exact List.length_eq_zero_iff.1 (by omega)
  | succ n ih =>
    intro l l' hl hd hp
    cases l with
    | nil => simp at hl
    | cons x xs =>
      have hxs : xs.length = n + 1 := by simpa using hl
      cases l' with
      | nil => have := hp.length_eq; simp at this
      | cons y ys =>
        have key : ∀ k : Nat, k < n + 2 → ∀ z zs, (∀ ks, deal (k :: ks) (x :: xs) = z :: deal ks zs) → (x :: xs)[k]? = some z →
            (z :: zs).Perm (x :: xs) → z = y →
            ∃ ks, Choices (n + 2) ks ∧ deal ks (x :: xs) = y :: ys ∧
              ∀ js, Choices (n + 2) js → deal js (x :: xs) = y :: ys → js = ks := by
          intro k hk z zs hz hzk hzp hzy
          subst hzy
          have hp2 : ys.Perm zs := (hp.trans hzp.symm).cons_inv
          have hzd : (z :: zs).Nodup := hzp.nodup_iff.2 hd
          have hzl : zs.length = n + 1 := by have := hzp.length_eq; simp at this; omega
          obtain ⟨ks, h1, h2, h3⟩ := ih zs ys hzl (List.nodup_cons.1 hzd).2 hp2
          refine ⟨k :: ks, choices_cons.2 ⟨hk, h1⟩, by rw [hz, h2], fun js hj hjd => ?_⟩
          cases js with
          | nil => have := hj.1; simp at this
          | cons j js =>
            obtain ⟨hj1, hj2⟩ := choices_cons.1 hj
            have hhead : (x :: xs)[j]? = some z := by
              cases j with
              | zero =>
                simp only [deal, List.cons.injEq] at hjd
                simp [hjd.1]
              | succ j =>
                have hj' : j < xs.length := by omega
                simp only [deal, List.getElem?_eq_getElem hj', List.cons.injEq] at hjd
                simp [List.getElem?_eq_getElem hj', hjd.1]
            have hjk : j = k := by
              obtain ⟨a1, a2⟩ := List.getElem?_eq_some_iff.1 hhead
              obtain ⟨b1, b2⟩ := List.getElem?_eq_some_iff.1 hzk
              exact (List.Nodup.getElem_inj_iff hd).1 (a2.trans b2.symm)
            subst hjk
            rw [hz] at hjd
            injection hjd with _ hjd
            rw [h3 js hj2 hjd]
        have hmem : y ∈ x :: xs := hp.subset List.mem_cons_self
        rcases List.mem_cons.1 hmem with rfl | hm
        · exact key 0 (by omega) y xs (fun ks => rfl) rfl (.refl _) rfl
        · obtain ⟨k, hk, hy⟩ := List.getElem_of_mem hm
          exact key (k + 1) (by omega) xs[k] (xs.set k x) (fun ks => by simp only [deal, List.getElem?_eq_getElem hk])
            (by simp [List.getElem?_eq_getElem hk]) (deal_perm.perm_set hk rfl) hy

end Rpp.Spec
