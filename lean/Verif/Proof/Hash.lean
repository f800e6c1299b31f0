import Verif.Model.Hash
import Verif.Proof.Math
import Mathlib.Data.Fintype.EquivFin
import Mathlib.Data.BitVec

/-! Lemmas on hashing and random numbers. -/

namespace Rpp.Hash
open Rpp

theorem eq_zero_of_shift {d : BitVec 64} {k : Nat} (hk : 0 < k) (h : d = d >>> k) : d = 0#64 := by
  have key : ∀ n i, 64 ≤ i + n → d.getLsbD i = false := by
    intro n
    induction n with
    | zero => intro i hi; exact BitVec.getLsbD_of_ge d i (by omega)
    | succ n ih =>
      intro i hi
      have e : d.getLsbD i = (d >>> k).getLsbD i := by rw [← h]
      rw [e, BitVec.getLsbD_ushiftRight]
      exact ih (k + i) (by omega)
  apply BitVec.eq_of_getLsbD_eq
  intro i _
  rw [key 64 i (by omega)]
  simp

theorem xorshift_inj {k : Nat} (hk : 0 < k) : Function.Injective (xorshift k) := by
  intro x y h
  unfold xorshift at h
  have e : x ^^^ y = (x ^^^ y) >>> k := by
    rw [BitVec.ushiftRight_xor_distrib]
    have : x ^^^ y = ((x ^^^ x >>> k) ^^^ (y ^^^ y >>> k)) ^^^ (x >>> k ^^^ y >>> k) := by
      ext i
      simp only [BitVec.getElem_xor]
      cases x[i] <;> cases y[i] <;> cases (x >>> k)[i] <;> cases (y >>> k)[i] <;> rfl
    rw [this, h, BitVec.xor_self, BitVec.zero_xor]
    -- both sides are now the same expression
  have := eq_zero_of_shift hk e
  have e2 : x = (x ^^^ y) ^^^ y := by rw [BitVec.xor_assoc, BitVec.xor_self, BitVec.xor_zero]
  rw [e2, this, BitVec.zero_xor]

theorem mul_inj {c c' : BitVec 64} (hc : c * c' = 1#64) : Function.Injective (fun x => x * c) := by
  intro x y h
  have h : x * c = y * c := h
  have : x * c * c' = y * c * c' := by rw [h]
  rwa [BitVec.mul_assoc, BitVec.mul_assoc, hc, BitVec.mul_one, BitVec.mul_one] at this

theorem add_inj (c : BitVec 64) : Function.Injective (fun x => x + c) := by
  intro x y h
  have h : x + c = y + c := h
  have : x + c - c = y + c - c := by rw [h]
  rwa [BitVec.add_sub_cancel, BitVec.add_sub_cancel] at this

theorem squirrel5_inj : Function.Injective squirrel5 := by
  intro x y h
  unfold squirrel5 at h
  simp only at h
  have h := xorshift_inj (by omega) h
  have h := mul_inj (c' := 0x2fb79ca89cf0be97#64) (by decide) h
  have h := xorshift_inj (by omega) h
  have h := add_inj _ h
  have h := xorshift_inj (by omega) h
  have h := mul_inj (c' := 0xc4befb7435d0001b#64) (by decide) h
  have h := xorshift_inj (by omega) h
  have h := add_inj _ h
  have h := xorshift_inj (by omega) h
  exact mul_inj (c' := 0xb4b04d0130db4ac5#64) (by decide) h

instance : Finite (BitVec 64) :=
  Finite.of_injective (fun x => x.toFin) (fun a b h => by
    cases a; cases b; simp only at h; rw [h])

theorem squirrel5_bij : Function.Bijective squirrel5 :=
  Finite.injective_iff_bijective.mp squirrel5_inj

theorem foldl_add_comm : ∀ (l : List (BitVec 64)) (a b : BitVec 64),
    l.foldl (· + ·) (a + b) = a + l.foldl (· + ·) b := by
  intro l
  induction l with
  | nil => intro a b; rfl
  | cons x l ih => intro a b; simp only [List.foldl_cons]; rw [BitVec.add_assoc, ih]

theorem foldl_add_perm {l l' : List (BitVec 64)} (h : l.Perm l') :
    ∀ a, l.foldl (· + ·) a = l'.foldl (· + ·) a := by
  induction h with
  | nil => intro a; rfl
  | cons x _ ih => intro a; exact ih _
  | swap x y l =>
    intro a
    simp only [List.foldl_cons]
    rw [BitVec.add_assoc, BitVec.add_assoc, BitVec.add_comm x y]
  | trans _ _ ih1 ih2 => intro a; rw [ih1, ih2]

end Rpp.Hash

namespace Rpp.RNG
open Rpp Rpp.Math

theorem arith_ok {t : IntTy} (hw : 0 < t.w) {x : Int} (hx : t.has x) : arith t x = .ok x := by
  unfold arith
  by_cases h32 : t.w < 32
  · have hu : t.usual = i32 := by unfold IntTy.usual; rw [if_pos h32]
    rw [hu, if_pos (show i32.signed = true from rfl)]
    have hp : (2 : Int) ^ t.w ≤ 2 ^ 31 := pow_le_pow_right₀ (by omega) (by omega)
    have hp1 : (2 : Int) ^ (t.w - 1) ≤ 2 ^ 31 := pow_le_pow_right₀ (by omega) (by omega)
    have hi : i32.has x := by
      unfold IntTy.has IntTy.lo IntTy.hi at hx ⊢
      simp only [show i32.signed = true from rfl, if_true, show i32.w = 32 from rfl]
      cases hs : t.signed
      · simp only [hs, Bool.false_eq_true, if_false] at hx; omega
      · simp only [hs, if_true] at hx; omega
    rw [if_pos hi]
  · have hu : t.usual = t := by unfold IntTy.usual; rw [if_neg h32]
    rw [hu]
    cases hs : t.signed
    · simp only [Bool.false_eq_true, if_false]
      unfold IntTy.has IntTy.lo IntTy.hi at hx
      simp only [hs, Bool.false_eq_true, if_false] at hx
      rw [Int.emod_eq_of_lt hx.1 (by omega)]
    · simp only [if_true]; rw [if_pos hx]

theorem has_lo {t : IntTy} (hs : t.signed = false) {x : Int} : t.has x ↔ 0 ≤ x ∧ x < 2 ^ t.w := by
  unfold IntTy.has IntTy.lo IntTy.hi
  simp only [hs, Bool.false_eq_true, if_false]
  omega

/-- The draw is in range whenever the cast value is not negative and the width of the interval is
representable. -/
theorem range_ok {t : IntTy} (hw : 0 < t.w) {min max : Int} (hmin : t.has min) (hmax : t.has max)
    (hlt : min < max) (hr : t.has (max - min)) (s : BitVec 64)
    (hn : 0 ≤ conv t (next s).toNat) :
    ∃ v, range t min max s = .ok (v, next s) ∧ min ≤ v ∧ v < max := by
  have hm0 : 0 ≤ (conv t (next s).toNat).tmod (max - min) := Int.tmod_nonneg _ hn
  have hm1 : (conv t (next s).toNat).tmod (max - min) < max - min :=
    Int.tmod_lt_of_pos _ (by omega)
  have hv : t.has (min + (conv t (next s).toNat).tmod (max - min)) := by
    unfold IntTy.has at hmin hmax ⊢; omega
  refine ⟨min + (conv t (next s).toNat).tmod (max - min), ?_, by omega, by omega⟩
  unfold range
  simp only [bind, Except.bind, arith_ok hw hr, conv_id hw hr]
  have e : rem t (conv t (next s).toNat) (max - min) =
      .ok ((conv t (next s).toNat).tmod (max - min)) := by
    unfold rem
    rw [if_neg (by omega), if_neg (by omega)]
  simp only [e, arith_ok hw hv, conv_id hw hv]
  rfl

theorem range_unsigned {t : IntTy} (hs : t.signed = false) (hw : 0 < t.w) {min max : Int}
    (hmin : t.has min) (hmax : t.has max) (hlt : min < max) (s : BitVec 64) :
    ∃ v, range t min max s = .ok (v, next s) ∧ min ≤ v ∧ v < max := by
  refine range_ok hw hmin hmax hlt ?_ s ((has_lo hs).mp (conv_has hw _)).1
  rw [has_lo hs] at *
  omega

theorem swapAt_ok {α : Type _} {l : List α} {i j : Nat} (hi : i < l.length) (hj : j < l.length) :
    ∃ l', swapAt l i j = .ok l' ∧ l'.Perm l := by
  unfold swapAt
  rw [List.getElem?_eq_getElem hi, List.getElem?_eq_getElem hj]
  exact ⟨_, rfl, List.set_set_perm hi hj⟩

theorem shuffleLoop_ok {α : Type _} : ∀ (n i : Nat) (l : List α) (s : BitVec 64),
    i + n + 1 = l.length → l.length < 2 ^ 64 →
    ∃ l' s', shuffleLoop n i l s = .ok (l', s') ∧ l'.Perm l := by
  intro n
  induction n with
  | zero => intro i l s _ _; exact ⟨l, s, rfl, .refl _⟩
  | succ n ih =>
    intro i l s hi hl
    have hb : ∀ k : Nat, k ≤ l.length → u64.has (k : Int) := by
      intro k hk
      rw [has_lo rfl]
      simp only [show u64.w = 64 from rfl]
      omega
    obtain ⟨v, e, h1, h2⟩ := range_unsigned (t := u64) rfl (by decide) (hb i (by omega))
      (hb l.length (by omega)) (by omega) s
    obtain ⟨l1, e1, p1⟩ := swapAt_ok (l := l) (i := i) (j := v.toNat) (by omega) (by omega)
    have hlen := p1.length_eq
    obtain ⟨l2, s2, e2, p2⟩ := ih (i + 1) l1 (next s) (by omega) (by omega)
    refine ⟨l2, s2, ?_, p2.trans p1⟩
    simp only [shuffleLoop, bind, Except.bind, e, e1, e2]

end Rpp.RNG
