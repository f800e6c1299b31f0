import Verif.Model.Rng
import Verif.Spec.Rng
import Verif.Proof.Hash
import Mathlib.Data.Int.CardIntervalMod
import Mathlib.Dynamics.PeriodicPts.Lemmas
import Mathlib.Data.Nat.Count
import Mathlib.Algebra.Order.Field.Basic
import Mathlib.Tactic.Linarith
import Mathlib.Tactic.NormNum
import Mathlib.Tactic.Positivity

/-! Lemmas on streams of random numbers. -/

namespace Rpp.RNG
open Rpp Rpp.Math Rpp.Spec

theorem next_bij : Function.Bijective next := Hash.squirrel5_bij

theorem card_fin (n : Nat) (P : Nat → Prop) [DecidablePred P] : Nat.card {i : Fin n // P i} = Nat.count P n := by
  letI := Nat.CountSet.fintype P n
  rw [Nat.count_eq_card_fintype, ← Nat.card_eq_fintype_card]
  exact Nat.card_congr
    { toFun := fun i => ⟨i.1, i.1.2, i.2⟩, invFun := fun k => ⟨⟨k.1, k.2.1⟩, k.2.2⟩, left_inv := fun _ => rfl, right_inv := fun _ => rfl }

theorem states_next (P : Nat → Prop) [DecidablePred P] : states (fun s => P (next s).toNat) = Nat.count P (2 ^ 64) := by
  rw [← card_fin]
  refine Nat.card_congr (((Equiv.ofBijective next next_bij).trans
    { toFun := BitVec.toFin, invFun := BitVec.ofFin, left_inv := fun _ => rfl, right_inv := fun _ => rfl }).subtypeEquiv fun s => ?_)
  rfl

theorem count_block (Q : Nat → Prop) [DecidablePred Q] (B : Nat) : ∀ m, Nat.count (fun n => Q (n % B)) (m * B) = m * Nat.count Q B := by
  intro m
  induction m with
  | zero => simp
  | succ m ih =>
    rw [Nat.succ_mul, Nat.count_add, ih, Nat.succ_mul]
    congr 1
    rw [Nat.count_eq_card_filter_range, Nat.count_eq_card_filter_range]
    congr 1
    refine Finset.filter_congr fun x hx => ?_
    rw [Nat.mul_add_mod_self_right, Nat.mod_eq_of_lt (Finset.mem_range.1 hx)]

theorem count_one {k B : Nat} (h : k < B) : Nat.count (fun n => n = k) B = 1 := by
  rw [Nat.count_eq_card_filter_range, Finset.filter_eq', if_pos (Finset.mem_range.2 h), Finset.card_singleton]

theorem count_low {w k : Nat} (hw : w ≤ 64) (hk : k < 2 ^ w) : Nat.count (fun n => n % 2 ^ w = k) (2 ^ 64) = 2 ^ (64 - w) := by
  have e : (2 : Nat) ^ 64 = 2 ^ (64 - w) * 2 ^ w := by rw [← Nat.pow_add]; congr 1; omega
  rw [e, count_block (fun n => n = k), count_one hk, Nat.mul_one]

theorem count_high {w k : Nat} (hk : k < 2 ^ (64 - w)) (hw : w ≤ 64) : Nat.count (fun n => n / 2 ^ w = k) (2 ^ 64) = 2 ^ w := by
  have e : (2 : Nat) ^ 64 = k * 2 ^ w + (2 ^ w + (2 ^ (64 - w) - k - 1) * 2 ^ w) := by
    have : (2 : Nat) ^ 64 = 2 ^ (64 - w) * 2 ^ w := by rw [← Nat.pow_add]; congr 1; omega
    rw [this]
    obtain ⟨d, hd⟩ : ∃ d, 2 ^ (64 - w) = k + 1 + d := ⟨2 ^ (64 - w) - k - 1, by omega⟩
    rw [hd, show k + 1 + d - k - 1 = d by omega]
    ring
  have h0 : 0 < 2 ^ w := by positivity
  rw [e, Nat.count_add, Nat.count_add]
  have a1 : Nat.count (fun n => n / 2 ^ w = k) (k * 2 ^ w) = 0 := by
    rw [Nat.count_eq_card_filter_range, Finset.card_eq_zero, Finset.filter_eq_empty_iff]
    intro x hx h
    have := Nat.div_lt_of_lt_mul (n := 2 ^ w) (k := k) (m := x) (by rw [Nat.mul_comm]; exact Finset.mem_range.1 hx)
    omega
  have a2 : Nat.count (fun n => (k * 2 ^ w + n) / 2 ^ w = k) (2 ^ w) = 2 ^ w := by
    rw [Nat.count_iff_forall]
    intro n hn
    rw [Nat.mul_comm, Nat.mul_add_div h0, Nat.div_eq_of_lt hn, Nat.add_zero]
  have a3 : ∀ m, Nat.count (fun n => (k * 2 ^ w + (2 ^ w + n)) / 2 ^ w = k) m = 0 := by
    intro m
    rw [Nat.count_eq_card_filter_range, Finset.card_eq_zero, Finset.filter_eq_empty_iff]
    intro x _ h
    have h' : (2 ^ w * k + (x + 2 ^ w)) / 2 ^ w = k := by rw [Nat.mul_comm, Nat.add_comm x]; exact h
    rw [Nat.mul_add_div h0, Nat.add_div_right _ h0] at h'
    generalize x / 2 ^ w = y at h'
    omega
  rw [a1, a2, a3]
  omega

theorem count_mod {r k N : Nat} (hr : 0 < r) (hk : k < r) : Nat.count (fun n => n % r = k) N = N / r + if k < N % r then 1 else 0 := by
  have := Nat.count_modEq_card N hr k
  rw [Nat.mod_eq_of_lt hk] at this
  rw [← this]
  congr 1
  funext n
  unfold Nat.ModEq
  rw [Nat.mod_eq_of_lt hk]

theorem count_range {w r k : Nat} (hw : w ≤ 64) (hr : 0 < r) (hk : k < r) :
    Nat.count (fun n => n % 2 ^ w % r = k) (2 ^ 64) = 2 ^ (64 - w) * (2 ^ w / r + if k < 2 ^ w % r then 1 else 0) := by
  have e : (2 : Nat) ^ 64 = 2 ^ (64 - w) * 2 ^ w := by rw [← Nat.pow_add]; congr 1; omega
  rw [e, count_block (fun n => n % r = k), count_mod hr hk]

theorem conv_iff {t : IntTy} (hw : 0 < t.w) {v : Int} (hv : t.has v) (n : Nat) :
    conv t n = v ↔ n % 2 ^ t.w = (v % 2 ^ t.w).toNat := by
  have h2 : (2 : Int) ^ t.w = 2 * 2 ^ (t.w - 1) := by
    rw [← Int.pow_succ']
    congr 1
    omega
  have hp : (0 : Int) < 2 ^ (t.w - 1) := Int.pow_pos (by omega)
  have hn : ((n % 2 ^ t.w : Nat) : Int) = (n : Int) % 2 ^ t.w := by push_cast; rfl
  have h0 : 0 ≤ (n : Int) % 2 ^ t.w := Int.emod_nonneg _ (by omega)
  have h1 : (n : Int) % 2 ^ t.w < 2 ^ t.w := Int.emod_lt_of_pos _ (by omega)
  have k0 : 0 ≤ v % 2 ^ t.w := Int.emod_nonneg _ (by omega)
  have k1 : v % 2 ^ t.w < 2 ^ t.w := Int.emod_lt_of_pos _ (by omega)
  have e : n % 2 ^ t.w = (v % 2 ^ t.w).toNat ↔ (n : Int) % 2 ^ t.w = v % 2 ^ t.w := by
    rw [← hn]; omega
  rw [e]
  have hv' : (0 ≤ v → v % 2 ^ t.w = v) ∧ (v < 0 → v % 2 ^ t.w = v + 2 ^ t.w) := by
    unfold IntTy.has IntTy.lo IntTy.hi at hv
    refine ⟨fun h => Int.emod_eq_of_lt h ?_, fun h => ?_⟩
    · split at hv <;> omega
    · rw [← Int.add_emod_right]
      refine Int.emod_eq_of_lt ?_ (by omega)
      split at hv <;> omega
  unfold IntTy.has IntTy.lo IntTy.hi at hv
  unfold conv
  dsimp only
  rcases Int.lt_or_le v 0 with hneg | hpos
  · rw [hv'.2 hneg]
    split
    · omega
    · rename_i hc
      cases hs : t.signed
      · rw [hs] at hv; simp at hv; omega
      · rw [hs] at hc hv; simp at hc hv; omega
  · rw [hv'.1 hpos]
    split
    · rename_i hc
      rw [hc.1] at hv; simp at hv; omega
    · exact Iff.rfl

theorem range_value {t : IntTy} (hs : t.signed = false) (hw : 0 < t.w) {min max : Int}
    (hmin : t.has min) (hmax : t.has max) (hlt : min < max) (s : BitVec 64) :
    range t min max s = .ok (min + ((next s).toNat % 2 ^ t.w % (max - min).toNat : Nat), next s) := by
  obtain ⟨v, e, -, -⟩ := range_unsigned hs hw hmin hmax hlt s
  have hr : t.has (max - min) := by rw [has_lo hs] at *; omega
  have hc : conv t (next s).toNat = ((next s).toNat % 2 ^ t.w : Nat) := by
    unfold conv
    dsimp only
    rw [if_neg (by simp [hs])]
    push_cast
    rfl
  have hn : 0 ≤ conv t (next s).toNat := by rw [hc]; omega
  have hm0 : 0 ≤ (conv t (next s).toNat).tmod (max - min) := Int.tmod_nonneg _ hn
  have hm1 : (conv t (next s).toNat).tmod (max - min) < max - min := Int.tmod_lt_of_pos _ (by omega)
  have hv : t.has (min + (conv t (next s).toNat).tmod (max - min)) := by
    unfold IntTy.has at hmin hmax ⊢; omega
  unfold range
  simp only [bind, Except.bind, arith_ok hw hr, conv_id hw hr]
  have e : rem t (conv t (next s).toNat) (max - min) = .ok ((conv t (next s).toNat).tmod (max - min)) := by
    unfold rem
    rw [if_neg (by omega), if_neg (by omega)]
  simp only [e, arith_ok hw hv, conv_id hw hv]
  rw [hc, Int.tmod_eq_emod_of_nonneg (by omega)]
  have : (((next s).toNat % 2 ^ t.w % (max - min).toNat : Nat) : Int) = (((next s).toNat % 2 ^ t.w : Nat) : Int) % (max - min) := by
    rw [Int.natCast_emod, Int.toNat_of_nonneg (by omega)]
  rw [this]
  rfl

theorem draws_length : ∀ n s, (draws n s).length = n
  | 0, _ => rfl
  | n + 1, s => by rw [draws, List.length_cons, draws_length n]

theorem draws_append : ∀ m n s, draws (m + n) s = draws m s ++ draws n (next^[m] s)
  | 0, n, s => by simp [draws]
  | m + 1, n, s => by
    rw [Nat.add_right_comm, draws, draws, draws_append m n, List.cons_append, Function.iterate_succ, Function.comp]

theorem draws_get : ∀ n s k, k < n → (draws n s)[k]? = some (next^[k + 1] s)
  | 0, _, _, h => by omega
  | n + 1, s, 0, _ => rfl
  | n + 1, s, k + 1, h => by
    rw [draws, List.getElem?_cons_succ, draws_get n _ k (by omega), Function.iterate_succ _ (k + 1), Function.comp]

theorem period (s : BitVec 64) : ∃ p, 0 < p ∧ next^[p] s = s ∧ ∀ i j, i < p → j < p → next^[i] s = next^[j] s → i = j := by
  have hp := Function.Injective.mem_periodicPts next_bij.1 s
  refine ⟨Function.minimalPeriod next s, Function.minimalPeriod_pos_of_mem_periodicPts hp, Function.iterate_minimalPeriod, ?_⟩
  intro i j hi hj h
  exact Function.iterate_injOn_Iio_minimalPeriod hi hj h

end Rpp.RNG

theorem Rpp.Hash.add_comm_inj {a b c : BitVec 64} (h : c + a = c + b) : a = b := by
  rw [BitVec.add_comm c, BitVec.add_comm c] at h
  exact add_inj c h
