import Verif.Proof.Hash
import Verif.Proof.Str
import Verif.Props.Str
import Mathlib.Tactic.NormNum
import Mathlib.Tactic.Positivity
import Mathlib.Algebra.Order.Ring.Abs
import Mathlib.Data.Rat.Defs
import Mathlib.Algebra.Order.Field.Basic

/-!
# Properties of hashing and random numbers (`rpp/hash.h`, `rpp/string0.h`, `rpp/rng.h`)
-/

namespace Rpp.Props
open Rpp Rpp.Spec Rpp.Hash Rpp.Math

/-- **C05.** `squirrel5` maps the 64-bit words one to one onto the 64-bit words. -/
theorem C05_squirrel5_bijective : Function.Bijective squirrel5 := squirrel5_bij

/-- **C05.** Distinct integers of any width up to 64 bits, signed or unsigned, have distinct hashes. -/
theorem C05_integer_hash_injective {w : Nat} (hw : w ≤ 64) (a b : BitVec w) (h : a ≠ b) :
    hashUnsigned a ≠ hashUnsigned b ∧ hashSigned a ≠ hashSigned b := by
  constructor
  · intro e
    have e := squirrel5_inj e
    apply h
    have := congrArg (BitVec.setWidth w) e
    rwa [BitVec.setWidth_setWidth_of_le _ hw, BitVec.setWidth_setWidth_of_le _ hw,
      BitVec.setWidth_eq, BitVec.setWidth_eq] at this
  · intro e
    have e := squirrel5_inj e
    apply h
    apply BitVec.eq_of_getLsbD_eq
    intro i hi
    have := congrArg (fun x => x.getLsbD i) e
    simp only [BitVec.getLsbD_signExtend, hi, if_true] at this
    simpa [show i < 64 by omega] using this

example : squirrel5 0#64 = 0x6a34a1a38b84c313#64 ∧ squirrel5 0#64 ≠ squirrel5 1#64 := by
  decide +kernel

/-- **C06.** `hash_nonzero` is never 0 and differs from `hash` at most in the lowest bit. -/
theorem C06_hash_nonzero (h : BitVec 64) :
    hash_nonzero h ≠ 0#64 ∧ hash_nonzero h >>> 1 = h >>> 1 := by
  unfold hash_nonzero
  constructor
  · intro e
    have := congrArg (fun x => x.getLsbD 0) e
    simp at this
  · ext i hi
    simp

/-- **C06.** The hash of a literal is never 0, for any seed. -/
theorem C06_hash_literal (s : List (BitVec 8)) (seed : BitVec 64) : hash_literal s seed ≠ 0#64 := by
  unfold hash_literal
  simp only
  split
  · decide
  · assumption

/-- **C06**, not vacuous: there is a seed for which the guard in `hash_literal` matters. -/
example : ∃ seed : BitVec 64, hash_literal [97#8] seed = 1#64 ∧
    [97#8].foldl (fun seed c => hash_combine seed (hashSigned c)) seed = 0#64 := by
  obtain ⟨x, hx⟩ := squirrel5_bij.2 0#64
  refine ⟨x - hashSigned 97#8, ?_⟩
  have e : [97#8].foldl (fun seed c => hash_combine seed (hashSigned c))
      (x - hashSigned 97#8) = 0#64 := by
    simp only [List.foldl_cons, List.foldl_nil, hash_combine]
    rw [BitVec.sub_add_cancel, hx]
  refine ⟨?_, e⟩
  unfold hash_literal
  simp only [e, if_true]

/-- **C07** for strings of which one has no zero byte: if `a == b` then their hashes are equal. Missing
from the full property: strings with embedded zero bytes (`C07_false`). -/
theorem C07_equal_strings_hash_partial {a b : View} (ha : a.Valid) (hb : b.Valid)
    (h0 : 0#8 ∉ a.bytes ∨ 0#8 ∉ b.bytes) (h : View.eq a b = .ok true) :
    hashString a.bytes = hashString b.bytes := by
  obtain ⟨r, hr, hiff⟩ := C39_eq_partial ha hb h0
  rw [hr] at h
  injection h with h
  rw [hiff.mp h]

/-- **C07**, the part that does hold for all strings: equal contents give equal hashes, whatever the
memory the views point to. -/
theorem C07_same_bytes_same_hash {a b : View} (h : a.bytes = b.bytes) :
    hashString a.bytes = hashString b.bytes := by rw [h]

/-- **C07 is false of the code:** `"a\0b"_v == "a\0c"_v`, but the hashes differ. -/
theorem C07_false : View.eq (View.of nulB) (View.of nulC) = .ok true ∧
    hashString (View.of nulB).bytes ≠ hashString (View.of nulC).bytes := by decide +kernel

/-- **C07 is false for floats as well:** `0.0f == -0.0f`, whose bit patterns `0` and `0x80000000` hash
differently (and the same for `f64`). -/
theorem C07_float_zero_false : hashF32 0#32 ≠ hashF32 0x80000000#32 ∧
    hashF64 0#64 ≠ hashF64 0x8000000000000000#64 := by
  constructor
  · intro e; have := squirrel5_inj e; revert this; decide
  · intro e; have := squirrel5_inj e; revert this; decide

example : View.eq (View.of (lit "key")) ⟨lit "a key", 2, 3⟩ = .ok true ∧
    hashString (lit "key") ≠ hashString (lit "kez") := by decide +kernel

theorem hashFold_inj {w : Nat} (f : BitVec w → BitVec 64) : ∀ (s : List (BitVec w)) (h h' : BitVec 64),
    s.foldl (fun h c => hash_combine h (f c)) h = s.foldl (fun h c => hash_combine h (f c)) h' → h = h'
  | [], _, _, e => e
  | c :: r, h, h', e => by
    have e := squirrel5_inj (hashFold_inj f r _ _ e)
    simpa using e

/-- **C98.** Changing one byte of a string changes its hash. -/
theorem C98_one_byte_changes_hash (s t : List (BitVec 8)) (hl : s.length = t.length) (i : Nat)
    (hi : s[i]? ≠ t[i]?) (he : ∀ j, j ≠ i → s[j]? = t[j]?) : hashString s ≠ hashString t := by
  have hs : i < s.length := by
    refine Decidable.byContradiction fun c => hi ?_
    rw [List.getElem?_eq_none (by omega), List.getElem?_eq_none (by omega)]
  have ht : i < t.length := hl ▸ hs
  have h1 : s.take i = t.take i := by
    apply List.ext_getElem?
    intro j
    by_cases c : j < i
    · rw [List.getElem?_take_of_lt c, List.getElem?_take_of_lt c, he j (by omega)]
    · rw [List.getElem?_eq_none (by simp; omega), List.getElem?_eq_none (by simp; omega)]
  have h2 : s.drop (i + 1) = t.drop (i + 1) := by
    apply List.ext_getElem?
    intro j
    rw [List.getElem?_drop, List.getElem?_drop, he _ (by omega)]
  have es : s = s.take i ++ s[i] :: s.drop (i + 1) := by simp
  have et : t = t.take i ++ t[i] :: t.drop (i + 1) := by simp
  have hne : s[i] ≠ t[i] := by
    intro c
    apply hi
    rw [List.getElem?_eq_getElem hs, List.getElem?_eq_getElem ht, c]
  intro e
  rw [es, et, h1, h2] at e
  unfold hashString at e
  rw [List.foldl_append, List.foldl_append, List.foldl_cons, List.foldl_cons] at e
  have e := squirrel5_inj (hashFold_inj hashUnsigned _ _ _ e)
  exact (C05_integer_hash_injective (by decide) _ _ hne).1 (by simpa using e)

/-- The hypotheses are met: the third byte of two keys differs. -/
example : hashString (lit "key") ≠ hashString (lit "kez") :=
  C98_one_byte_changes_hash _ _ rfl 2 (by decide) (by
    intro j hj
    match j, hj with
    | 0, _ => rfl
    | 1, _ => rfl
    | k + 3, _ => rfl)

/-- **C98.** A common ending adds no collisions: two strings that collide with it collide without it. -/
theorem C98_same_suffix (s t r : List (BitVec 8)) (h : hashString (s ++ r) = hashString (t ++ r)) :
    hashString s = hashString t := by
  unfold hashString at h ⊢
  rw [List.foldl_append, List.foldl_append] at h
  exact hashFold_inj hashUnsigned r _ _ h

example : hashString (lit "aba" ++ lit "_key") ≠ hashString (lit "ab" ++ lit "_key") :=
  fun e => absurd (C98_same_suffix _ _ _ e) (by decide +kernel)

/-- **C08.** `hash_combine` is commutative, and `hash(values...)` depends only on the multiset of the
arguments' hashes: permuted arguments always collide. -/
theorem C08_order_insensitive :
    (∀ a b, hash_combine a b = hash_combine b a) ∧
    ∀ l l' : List (BitVec 64), l.Perm l' → hashMany l = hashMany l' := by
  constructor
  · intro a b; unfold hash_combine; rw [BitVec.add_comm]
  · intro l l' h; unfold hashMany; rw [foldl_add_perm h]

/-- **C08.** Conversely, two-argument hashes collide only when the sums of the hashes agree. -/
theorem C08_collision_iff (a b c d : BitVec 64) :
    hashMany [a, b] = hashMany [c, d] ↔ a + b = c + d := by
  unfold hashMany
  simp only [List.foldl_cons, List.foldl_nil, BitVec.zero_add]
  constructor
  · intro h
    have := squirrel5_inj h
    simpa using this
  · intro h
    simp [h]

/-- **C09** for vectors that are not empty: `shuffle` succeeds for every generator state and the result
is a permutation of the input. Missing: the empty vector (`C09_empty_false`). -/
theorem C09_shuffle_partial {α : Type} (l : List α) (h0 : l ≠ []) (hl : l.length < 2 ^ 64)
    (s : BitVec 64) : ∃ l' s', RNG.shuffle l s = .ok (l', s') ∧ l'.Perm l := by
  have hpos : 0 < l.length := List.length_pos_iff.mpr h0
  unfold RNG.shuffle
  have e : subw 64 l.length 1 = l.length - 1 := by unfold subw; omega
  rw [e]
  exact RNG.shuffleLoop_ok _ _ l s (by omega) hl

/-- **C09 is false of the code** for the empty vector: `length() - 1` wraps, the loop is entered and
`range(0, 0)` divides by zero, whatever the generator state. -/
theorem C09_empty_false {α : Type} (s : BitVec 64) :
    RNG.shuffle ([] : List α) s = .error .ub := by
  unfold RNG.shuffle
  obtain ⟨k, hk⟩ : ∃ k, subw 64 ([] : List α).length 1 = k + 1 :=
    ⟨2 ^ 64 - 2, by unfold subw; simp⟩
  rw [hk]
  have e : RNG.range u64 ((0 : Nat) : Int) (([] : List α).length : Int) s = .error .ub := by
    unfold RNG.range
    have : conv u64 0 = 0 := by decide
    simp only [List.length_nil, Nat.cast_zero, Int.sub_self, bind, Except.bind, RNG.arith_ok
      (t := u64) (by decide) (x := 0) (by decide), this]
    rfl
  simp only [RNG.shuffleLoop, e, bind, Except.bind]

example : (RNG.shuffle [1, 2, 3, 4, 5] 7#64).map (·.1) = .ok [2, 5, 3, 1, 4] := by decide +kernel

/-- **C10** for unsigned types of every width: the value is in `[min, max)` for every state. -/
theorem C10_range_unsigned_partial {t : IntTy} (hs : t.signed = false) (hw : 0 < t.w) {min max : Int}
    (hmin : t.has min) (hmax : t.has max) (hlt : min < max) (s : BitVec 64) :
    ∃ v, RNG.range t min max s = .ok (v, RNG.next s) ∧ min ≤ v ∧ v < max :=
  RNG.range_unsigned hs hw hmin hmax hlt s

/-- **C10** for signed types, when the draw cast to the type is not negative and `max - min` is
representable. Missing: the other half of the draws and wide intervals (`C10_signed_false`). -/
theorem C10_range_signed_partial {t : IntTy} (hw : 0 < t.w) {min max : Int}
    (hmin : t.has min) (hmax : t.has max) (hlt : min < max) (hr : t.has (max - min)) (s : BitVec 64)
    (hn : 0 ≤ conv t (RNG.next s).toNat) :
    ∃ v, RNG.range t min max s = .ok (v, RNG.next s) ∧ min ≤ v ∧ v < max :=
  RNG.range_ok hw hmin hmax hlt hr s hn

/-- **C10 is false of the code** for signed types: with generator state 3, `range<i32>(0, 10)` is
-8; `range<i32>(-2^31, 2^31 - 1)` overflows. -/
theorem C10_signed_false :
    (RNG.range i32 0 10 3#64).map (·.1) = .ok (-8) ∧
    RNG.range i32 (-2 ^ 31) (2 ^ 31 - 1) 3#64 = .error .ub := by decide +kernel

example : ((RNG.range u64 5 8 3#64).map (fun r => decide (5 ≤ r.1 ∧ r.1 < 8))) = .ok true ∧
    0 ≤ conv i32 (RNG.next 5#64).toNat := by decide +kernel

/-- A correctly rounded (to at least 20 significant bits) result `v` for the exact value `x`. -/
def Rounded (v x : ℚ) : Prop := |v - x| ≤ |x| / 2 ^ 20

theorem unit_bound {n : Nat} {c v B : ℚ} (hc : 0 ≤ c) (hv : Rounded v (n * c))
    (hB : (n : ℚ) * c * 2 ≤ B) : 0 ≤ v ∧ v ≤ B := by
  unfold Rounded at hv
  have h0 : 0 ≤ (n : ℚ) * c := by positivity
  rw [abs_of_nonneg h0] at hv
  rw [abs_le] at hv
  have : (n : ℚ) * c / 2 ^ 20 ≤ (n : ℚ) * c := by
    rw [div_le_iff₀ (by norm_num)]
    nlinarith
  constructor <;> linarith [hv.1, hv.2]

/-- **C11**, the part that holds: `unit<f32>()` and `unit<f64>()` are in `[0, 1)` for every state and
any rounding of the product. Missing: that they cover the interval (`C11_false`). -/
theorem C11_unit_partial (s : BitVec 64) (v32 v64 : ℚ)
    (h32 : Rounded v32 (RNG.unitBits32 s * (1 / 10 ^ 24)))
    (h64 : Rounded v64 (RNG.unitBits64 s * (1 / 10 ^ 53))) :
    (0 ≤ v32 ∧ v32 < 1) ∧ (0 ≤ v64 ∧ v64 < 1) := by
  have b32 : RNG.unitBits32 s < 2 ^ 24 := by
    unfold RNG.unitBits32
    rw [BitVec.toNat_ushiftRight, Nat.shiftRight_eq_div_pow]
    have := (RNG.next s).isLt
    omega
  have b64 : RNG.unitBits64 s < 2 ^ 53 := by
    unfold RNG.unitBits64
    rw [BitVec.toNat_ushiftRight, Nat.shiftRight_eq_div_pow]
    have := (RNG.next s).isLt
    omega
  have c32 : ((RNG.unitBits32 s : Nat) : ℚ) ≤ 2 ^ 24 := by exact_mod_cast b32.le
  have c64 : ((RNG.unitBits64 s : Nat) : ℚ) ≤ 2 ^ 53 := by exact_mod_cast b64.le
  have r32 := unit_bound (B := 1 / 2) (by norm_num) h32 (by
    have : ((RNG.unitBits32 s : Nat) : ℚ) * (1 / 10 ^ 24) * 2 ≤ 2 ^ 24 * (1 / 10 ^ 24) * 2 := by
      gcongr
    refine this.trans (by norm_num))
  have r64 := unit_bound (B := 1 / 2) (by norm_num) h64 (by
    have : ((RNG.unitBits64 s : Nat) : ℚ) * (1 / 10 ^ 53) * 2 ≤ 2 ^ 53 * (1 / 10 ^ 53) * 2 := by
      gcongr
    refine this.trans (by norm_num))
  exact ⟨⟨r32.1, by linarith [r32.2]⟩, ⟨r64.1, by linarith [r64.2]⟩⟩

/-- **C11 is false of the code:** the scale factors are `1e-24` and `1e-53` instead of `2^-24` and
`2^-53`, so for *every* state the value is below `10^-16` (f32), `10^-36` (f64): the interval is not
covered, and `coin_flip(p)` is true for every `p ≥ 10^-16`. -/
theorem C11_false (s : BitVec 64) (v32 v64 : ℚ)
    (h32 : Rounded v32 (RNG.unitBits32 s * (1 / 10 ^ 24)))
    (h64 : Rounded v64 (RNG.unitBits64 s * (1 / 10 ^ 53))) :
    v32 < 1 / 10 ^ 16 ∧ v64 < 1 / 10 ^ 36 := by
  have b32 : RNG.unitBits32 s < 2 ^ 24 := by
    unfold RNG.unitBits32
    rw [BitVec.toNat_ushiftRight, Nat.shiftRight_eq_div_pow]
    have := (RNG.next s).isLt
    omega
  have b64 : RNG.unitBits64 s < 2 ^ 53 := by
    unfold RNG.unitBits64
    rw [BitVec.toNat_ushiftRight, Nat.shiftRight_eq_div_pow]
    have := (RNG.next s).isLt
    omega
  have c32 : ((RNG.unitBits32 s : Nat) : ℚ) ≤ 2 ^ 24 := by exact_mod_cast b32.le
  have c64 : ((RNG.unitBits64 s : Nat) : ℚ) ≤ 2 ^ 53 := by exact_mod_cast b64.le
  have r32 := unit_bound (B := 1 / 10 ^ 16 / 2) (by norm_num) h32 (by
    have : ((RNG.unitBits32 s : Nat) : ℚ) * (1 / 10 ^ 24) * 2 ≤ 2 ^ 24 * (1 / 10 ^ 24) * 2 := by
      gcongr
    refine this.trans (by norm_num))
  have r64 := unit_bound (B := 1 / 10 ^ 36 / 2) (by norm_num) h64 (by
    have : ((RNG.unitBits64 s : Nat) : ℚ) * (1 / 10 ^ 53) * 2 ≤ 2 ^ 53 * (1 / 10 ^ 53) * 2 := by
      gcongr
    refine this.trans (by norm_num))
  constructor
  · refine lt_of_le_of_lt r32.2 (by norm_num)
  · refine lt_of_le_of_lt r64.2 (by norm_num)

/-- The hypotheses of `C11_false` are met by the exact product. -/
example (s : BitVec 64) : Rounded (RNG.unitBits32 s * (1 / 10 ^ 24)) (RNG.unitBits32 s * (1 / 10 ^ 24)) := by
  unfold Rounded; rw [sub_self, abs_zero]; positivity

end Rpp.Props
