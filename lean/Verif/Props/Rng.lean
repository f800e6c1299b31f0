import Verif.Proof.Rng

/-!
# C146: streams of random numbers

Full statement: every value of `integer` belongs to the same number of states of the generator, and so does every value of `range`
up to the remainder; streams with different seeds give different values at every draw, no value comes twice before the stream begins
again; `coin_flip(p)` is true for the share `p` of the states. The last is false (`C146_coin_false`).
-/

namespace Rpp.Props
open Rpp Rpp.Math Rpp.RNG Rpp.Spec

/-- **C146** for `integer`: every value of the type is drawn from `2 ^ (64 - w)` states. -/
theorem C146_integer {t : IntTy} (h0 : 0 < t.w) (h64 : t.w ≤ 64) (v : Int) (hv : t.has v) :
    states (fun s => (integer t s).1 = v) = 2 ^ (64 - t.w) := by
  have h2 : (0 : Int) < 2 ^ t.w := Int.pow_pos (by omega)
  have hl : v % 2 ^ t.w < 2 ^ t.w := Int.emod_lt_of_pos _ h2
  have hn : 0 ≤ v % 2 ^ t.w := Int.emod_nonneg _ (by omega)
  have hk : (v % 2 ^ t.w).toNat < 2 ^ t.w := by
    have : (((v % 2 ^ t.w).toNat : Nat) : Int) < ((2 ^ t.w : Nat) : Int) := by
      rw [Int.toNat_of_nonneg hn]; push_cast; exact hl
    omega
  have e : (fun s => (integer t s).1 = v) = fun s => (next s).toNat % 2 ^ t.w = (v % 2 ^ t.w).toNat := by
    funext s
    exact propext (conv_iff h0 hv _)
  rw [e, states_next (fun n => n % 2 ^ t.w = (v % 2 ^ t.w).toNat), count_low h64 hk]

/-- **C146** for `range` of an unsigned type: with `r` values in the range, value number `k` is drawn from `2 ^ w / r` times
`2 ^ (64 - w)` states, and once more so many if `k` is below the remainder. -/
theorem C146_range {t : IntTy} (hs : t.signed = false) (h0 : 0 < t.w) (h64 : t.w ≤ 64) {min max : Int} (hmin : t.has min)
    (hmax : t.has max) (hlt : min < max) (r k : Nat) (hr : max = min + r) (hk : k < r) :
    states (fun s => (range t min max s).map (·.1) = .ok (min + k)) =
      2 ^ (64 - t.w) * (2 ^ t.w / r + if k < 2 ^ t.w % r then 1 else 0) := by
  have e : (fun s => (range t min max s).map (·.1) = .ok (min + k)) = fun s => (next s).toNat % 2 ^ t.w % r = k := by
    funext s
    rw [range_value hs h0 hmin hmax hlt, show (max - min).toNat = r by omega]
    refine propext ⟨fun h => ?_, fun h => ?_⟩
    · have h : min + (((next s).toNat % 2 ^ t.w % r : Nat) : Int) = min + k := Except.ok.inj h
      omega
    · rw [h]; rfl
  rw [e, states_next (fun n => n % 2 ^ t.w % r = k), count_range h64 (by omega) hk]

/-- **C146** for the numbers that `unit` scales: each of the `2 ^ 24` for `f32` is drawn from `2 ^ 40` states, each of the `2 ^ 53` for
`f64` from `2 ^ 11`. -/
theorem C146_unit :
    (∀ k < 2 ^ 24, states (fun s => unitBits32 s = k) = 2 ^ 40) ∧ (∀ k < 2 ^ 53, states (fun s => unitBits64 s = k) = 2 ^ 11) := by
  have e (w k : Nat) (f : BitVec 64 → Nat) (hf : ∀ s, f s = (next s >>> w).toNat) :
      (fun s => f s = k) = fun s => (next s).toNat / 2 ^ w = k := by
    funext s
    rw [hf, BitVec.toNat_ushiftRight, Nat.shiftRight_eq_div_pow]
  refine ⟨fun k hk => ?_, fun k hk => ?_⟩
  · rw [e 40 k unitBits32 (fun _ => rfl), states_next (fun n => n / 2 ^ 40 = k), count_high hk (by omega)]
  · rw [e 11 k unitBits64 (fun _ => rfl), states_next (fun n => n / 2 ^ 11 = k), count_high hk (by omega)]

/-- **C146** for streams: with different seeds they differ at every draw. Each stream has a period: within it all values are
different, the last is the seed, and then it begins again. -/
theorem C146_streams :
    (∀ (a b : BitVec 64), a ≠ b → ∀ (n k : Nat) (x y : BitVec 64), (draws n a)[k]? = some x → (draws n b)[k]? = some y → x ≠ y) ∧
    (∀ s : BitVec 64, ∃ p, 0 < p ∧ (draws p s).length = p ∧ (draws p s).Nodup ∧ (draws p s).getLast? = some s ∧
      ∀ n, draws (p + n) s = draws p s ++ draws n s) := by
  refine ⟨fun a b hab n k x y hx hy => ?_, fun s => ?_⟩
  · have hk : k < n := by
      have := (List.getElem?_eq_some_iff.1 hx).1
      rwa [draws_length] at this
    rw [draws_get n _ k hk, Option.some.injEq] at hx hy
    rw [← hx, ← hy]
    exact fun h => hab (next_bij.1.iterate _ h)
  · obtain ⟨p, hp, hl, hi⟩ := period s
    refine ⟨p, hp, draws_length p s, ?_, ?_, fun n => by rw [draws_append, hl]⟩
    · rw [List.nodup_iff_getElem?_ne_getElem?]
      intro i j hij hj
      rw [draws_length] at hj
      rw [draws_get p s i (by omega), draws_get p s j hj]
      intro h
      rw [Option.some.injEq, Function.iterate_succ', Function.iterate_succ'] at h
      have := hi i j (by omega) hj (next_bij.1 h)
      omega
    · rw [List.getLast?_eq_getElem?, draws_length, draws_get p s (p - 1) (by omega), show p - 1 + 1 = p by omega, hl]

/-- **C146** for calls of `integer` in a row: call number `k` gives the value of the type that agrees with draw number `k` of the stream in
the low bits, so that no draw is used twice or skipped. -/
theorem C146_integers {t : IntTy} (h0 : 0 < t.w) (n : Nat) (s : BitVec 64) :
    (integers t n s).length = n ∧
    ∀ (k : Nat) (v : Int) (x : BitVec 64), (integers t n s)[k]? = some v → (draws n s)[k]? = some x →
      t.has v ∧ v % 2 ^ t.w = (x.toNat : Int) % 2 ^ t.w := by
  induction n generalizing s with
  | zero => exact ⟨rfl, fun k v x h => by simp [integers] at h⟩
  | succ n ih =>
    obtain ⟨hl, hi⟩ := ih (next s)
    refine ⟨congrArg (· + 1) hl, fun k v x hv hx => ?_⟩
    cases k with
    | zero =>
      have hv : conv t (next s).toNat = v := by simpa [integers, integer] using hv
      have hx : next s = x := by simpa [draws] using hx
      subst hv hx
      exact ⟨conv_has h0 _, conv_mod t _⟩
    | succ k => exact hi k v x (by simpa [integers, integer] using hv) (by simpa [draws] using hx)

/-- **C146** for calls of `integer` of 64 bits in a row: streams with different seeds differ at every call, and within the period of the
stream no value comes twice. -/
theorem C146_distinct {t : IntTy} (h64 : t.w = 64) :
    (∀ (a b : BitVec 64), a ≠ b → ∀ (n k : Nat) (x y : Int), (integers t n a)[k]? = some x → (integers t n b)[k]? = some y → x ≠ y) ∧
    (∀ s : BitVec 64, ∃ p, 0 < p ∧ (draws p s).getLast? = some s ∧ (integers t p s).Nodup ∧
      ∀ n, integers t (p + n) s = integers t p s ++ integers t n s) := by
  have h0 : 0 < t.w := by omega
  have inj : ∀ x y : BitVec 64, conv t x.toNat = conv t y.toNat → x = y := by
    intro x y h
    have h := congrArg (· % (2 : Int) ^ t.w) h
    rw [conv_mod, conv_mod, h64] at h
    have hx := x.isLt
    have hy := y.isLt
    exact BitVec.eq_of_toNat_eq (by omega)
  have eq : ∀ n s, integers t n s = (draws n s).map (fun x => conv t x.toNat) := by
    intro n
    induction n with
    | zero => intro s; rfl
    | succ n ih => intro s; exact congrArg (_ :: ·) (ih _)
  refine ⟨fun a b hab n k x y hx hy => ?_, fun s => ?_⟩
  · rw [eq, List.getElem?_map] at hx hy
    obtain ⟨u, hu, rfl⟩ := Option.map_eq_some_iff.1 hx
    obtain ⟨w, hw, rfl⟩ := Option.map_eq_some_iff.1 hy
    exact fun h => C146_streams.1 a b hab n k u w hu hw (inj _ _ h)
  · obtain ⟨p, hp, -, hn, hl, hq⟩ := C146_streams.2 s
    refine ⟨p, hp, hl, ?_, fun n => ?_⟩
    · rw [eq]
      exact hn.map (fun x y h => inj x y h)
    · rw [eq, eq, eq, hq, List.map_append]

/-- **C146** for calls of `range` of an unsigned type in a row: call number `k` gives `min` and the remainder of draw number `k`. -/
theorem C146_ranges {t : IntTy} (hs : t.signed = false) (h0 : 0 < t.w) {min max : Int} (hmin : t.has min)
    (hmax : t.has max) (hlt : min < max) (n : Nat) (s : BitVec 64) :
    ∃ l, ranges t min max n s = .ok l ∧ l.length = n ∧
    ∀ (k : Nat) (v : Int) (x : BitVec 64), l[k]? = some v → (draws n s)[k]? = some x →
      v = min + (x.toNat : Int) % 2 ^ t.w % (max - min) := by
  induction n generalizing s with
  | zero => exact ⟨[], rfl, rfl, fun k v x h => by simp at h⟩
  | succ n ih =>
    obtain ⟨l, e, hl, hi⟩ := ih (next s)
    refine ⟨(min + ((next s).toNat % 2 ^ t.w % (max - min).toNat : Nat)) :: l, ?_, congrArg (· + 1) hl, ?_⟩
    · unfold ranges
      rw [range_value hs h0 hmin hmax hlt]
      simp only [bind, Except.bind, e]
      rfl
    · intro k v x hv hx
      cases k with
      | zero =>
        have hv : min + ((next s).toNat % 2 ^ t.w % (max - min).toNat : Nat) = v := by simpa using hv
        have hx : next s = x := by simpa [draws] using hx
        subst hv hx
        push_cast
        rw [show ((max - min).toNat : Int) = max - min by omega]
      | succ k => exact hi k v x (by simpa using hv) (by simpa [draws] using hx)

/-- **C146** for streams that seed themselves: two threads in the same second have different seeds. (The seed is a function of the
thread and the second: streams made by one thread within a second are the same. It is symmetric in the two.) -/
theorem C146_seed (a b time : BitVec 64) :
    (seedOf a time = seedOf b time ↔ a = b) ∧ seedOf a b = seedOf b a := by
  refine ⟨⟨fun h => ?_, fun h => by rw [h]⟩, ?_⟩
  · unfold seedOf Hash.hashMany at h
    have h := Hash.squirrel5_inj h
    simp only [List.foldl_cons, List.foldl_nil] at h
    have h := Hash.add_inj _ h
    have h := Hash.add_comm_inj h
    unfold Hash.hashUnsigned at h
    simp only [BitVec.setWidth_eq] at h
    exact Hash.squirrel5_inj (Hash.squirrel5_inj h)
  · unfold seedOf Hash.hashMany
    simp only [List.foldl_cons, List.foldl_nil]
    refine congrArg Hash.squirrel5 ?_
    rw [BitVec.add_assoc, BitVec.add_assoc, BitVec.add_comm (Hash.hashUnsigned (Hash.hashUnsigned a))]

/-- **C146 is false** for `coin_flip`: however the products are rounded (to 20 bits at least), it is true in all states for every `p`
from `10 ^ -16` on, so also for one half; it is never true for `p ≤ 0`. -/
theorem C146_coin_false (rnd : Rat → Rat) (hr : ∀ x, 0 ≤ x → |rnd x - x| ≤ x / 2 ^ 20) :
    (∀ p, 1 / 10 ^ 16 ≤ p → ∀ s, coin32 rnd p s = true ∧ coin64 rnd p s = true) ∧
    (∀ p, p ≤ 0 → ∀ s, coin32 rnd p s = false ∧ coin64 rnd p s = false) ∧
    states (fun s => coin32 rnd (1 / 2) s = true) = 2 ^ 64 ∧ states (fun s => coin64 rnd (1 / 2) s = true) = 2 ^ 64 := by
  have b (s : BitVec 64) (w : Nat) (hw : w ≤ 64) : (next s >>> w).toNat < 2 ^ (64 - w) := by
    rw [BitVec.toNat_ushiftRight, Nat.shiftRight_eq_div_pow]
    refine Nat.div_lt_of_lt_mul ?_
    rw [← Nat.pow_add, show w + (64 - w) = 64 by omega]
    exact (next s).isLt
  have key (n : Nat) (c : Rat) (hc : 0 ≤ c) (hn : (n : Rat) * c * 2 < 1 / 10 ^ 16) : 0 ≤ rnd (n * c) ∧ rnd (n * c) < 1 / 10 ^ 16 := by
    have h0 : (0 : Rat) ≤ n * c := by positivity
    have h1 := abs_le.1 (hr _ h0)
    have h2 : (n : Rat) * c / 2 ^ 20 ≤ n * c := by
      rw [div_le_iff₀ (by norm_num)]
      nlinarith
    constructor <;> linarith [h1.1, h1.2]
  have u32 (s : BitVec 64) : 0 ≤ unit32 rnd s ∧ unit32 rnd s < 1 / 10 ^ 16 := by
    have h := b s 40 (by omega)
    have h' : ((unitBits32 s : Nat) : Rat) ≤ 2 ^ 24 := by exact_mod_cast h.le
    exact key _ _ (by norm_num) (by
      have : (unitBits32 s : Rat) * (1 / 10 ^ 24) * 2 ≤ 2 ^ 24 * (1 / 10 ^ 24) * 2 := by gcongr
      refine lt_of_le_of_lt this (by norm_num))
  have u64 (s : BitVec 64) : 0 ≤ unit64 rnd s ∧ unit64 rnd s < 1 / 10 ^ 16 := by
    have h := b s 11 (by omega)
    have h' : ((unitBits64 s : Nat) : Rat) ≤ 2 ^ 53 := by exact_mod_cast h.le
    exact key _ _ (by norm_num) (by
      have : (unitBits64 s : Rat) * (1 / 10 ^ 53) * 2 ≤ 2 ^ 53 * (1 / 10 ^ 53) * 2 := by gcongr
      refine lt_of_le_of_lt this (by norm_num))
  have all (f : BitVec 64 → Prop) (h : ∀ s, f s) : states f = 2 ^ 64 := by
    have e : f = fun s => (fun _ => True) (next s).toNat := by funext s; exact propext ⟨fun _ => trivial, fun _ => h s⟩
    rw [e, states_next (fun _ => True), Nat.count_true]
  have heads : ∀ p, 1 / 10 ^ 16 ≤ p → ∀ s, coin32 rnd p s = true ∧ coin64 rnd p s = true := fun p hp s =>
    ⟨decide_eq_true (lt_of_lt_of_le (u32 s).2 hp), decide_eq_true (lt_of_lt_of_le (u64 s).2 hp)⟩
  refine ⟨heads, fun p hp s => ⟨decide_eq_false (not_lt.2 (hp.trans (u32 s).1)), decide_eq_false (not_lt.2 (hp.trans (u64 s).1))⟩,
    all _ fun s => (heads _ (by norm_num) s).1, all _ fun s => (heads _ (by norm_num) s).2⟩

/-- The first draws of a stream with the seed 1. -/
example : (draws 3 1#64).Nodup ∧ (draws 3 1#64).length = 3 ∧ (draws 3 1#64)[1]? ≠ (draws 3 2#64)[1]? := by decide +kernel

/-- A range of ten values of 8 bits: 256 states of 8 bits give the first six values once more. -/
example : 2 ^ (64 - 8) * (2 ^ 8 / 10 + if 5 < 2 ^ 8 % 10 then 1 else 0) = 26 * 2 ^ 56 ∧
    2 ^ (64 - 8) * (2 ^ 8 / 10 + if 6 < 2 ^ 8 % 10 then 1 else 0) = 25 * 2 ^ 56 ∧
    (RNG.range u8 3 13 7#64).map (fun r => decide (3 ≤ r.1 ∧ r.1 < 13)) = .ok true := by decide +kernel

/-- Three calls each. -/
example : (integers u64 3 1#64).Nodup ∧ (integers u8 3 1#64).length = 3 ∧
    (ranges u8 3 13 3 7#64).map (fun l => l.all fun v => decide (3 ≤ v ∧ v < 13)) = .ok true := by decide +kernel

/-- Exact products meet the condition on rounding. -/
example : ∀ x : Rat, 0 ≤ x → |id x - x| ≤ x / 2 ^ 20 := fun x hx => by
  rw [id, sub_self, abs_zero]; positivity

end Rpp.Props
