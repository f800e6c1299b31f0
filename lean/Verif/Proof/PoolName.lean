import Verif.Model.PoolName
import Verif.Props.Math

namespace Rpp.PoolName

/-- The last `n` digits of `N`, first the highest. -/
def digs (N : Nat) : Nat → List Nat
  | 0 => []
  | n + 1 => N / 10 ^ n % 10 :: digs N n

theorem digs_len (N : Nat) : ∀ n, (digs N n).length = n
  | 0 => rfl
  | n + 1 => by simp [digs, digs_len N n]

theorem digs_lt (N : Nat) : ∀ n, ∀ d ∈ digs N n, d < 10
  | 0, d, h => by cases h
  | n + 1, d, h => by
    rcases List.mem_cons.1 h with rfl | h
    · exact Nat.mod_lt _ (by omega)
    · exact digs_lt N n d h

theorem digs_value (N : Nat) : ∀ n v, (digs N n).foldl (fun v d => 10 * v + d) v = v * 10 ^ n + N % 10 ^ n
  | 0, v => by simp [digs, Nat.mod_one]
  | n + 1, v => by
    simp only [digs, List.foldl_cons]
    rw [digs_value N n]
    have h := Nat.mod_mul (a := 10 ^ n) (b := 10) (x := N)
    rw [Nat.pow_succ, h]
    grind

theorem countLoop_spec : ∀ (fuel i n : Nat), i < 10 ^ fuel → 
    ∃ k, countLoop (fuel + 1) i n = .ok (n + k) ∧ i < 10 ^ k ∧ (0 < k → 10 ^ (k - 1) ≤ i) ∧ (0 < i → 0 < k)
  | 0, i, n, h => ⟨0, by
      have : i = 0 := by simpa using h
      subst this
      simp [countLoop], by simpa using h, by simp, by intro c; simp at h; omega⟩
  | fuel + 1, i, n, h => by
    unfold countLoop
    by_cases hi : 0 < i
    · rw [if_pos hi]
      obtain ⟨k, h1, h2, h3, h4⟩ := countLoop_spec fuel (i / 10) (n + 1) (by rw [Nat.div_lt_iff_lt_mul (by omega), ← Nat.pow_succ]; exact h)
      refine ⟨k + 1, by rw [h1]; congr 1; omega, ?_, ?_, by omega⟩
      · rw [Nat.pow_succ]; omega
      · intro _
        rw [Nat.add_sub_cancel]
        cases k with
        | zero => rw [Nat.pow_zero]; exact hi
        | succ k =>
          have := h3 (by omega)
          rw [Nat.add_sub_cancel] at this
          rw [Nat.pow_succ]; omega
    · rw [if_neg hi]
      have : i = 0 := by omega
      exact ⟨0, rfl, by simp [this], by simp, by omega⟩

theorem pow_ten {n : Nat} (h : n ≤ 19) : Math.pow Math.u64 65 10 (n : Int) = .ok ((10 ^ n : Nat) : Int) := by
  have hlt : (10 : Nat) ^ n ≤ 10 ^ 19 := Nat.pow_le_pow_right (by omega) h
  have hlt' : (10 : Nat) ^ n < 2 ^ 64 := Nat.lt_of_le_of_lt hlt (by decide)
  have := (Rpp.Props.C04_pow_partial (t := Math.u64) (by simp) (base := 10) (by decide) (e := n)
    (by simp [Math.IntTy.has, Math.IntTy.hi, Math.IntTy.lo, Math.u64]; omega)).2 (by
      have e : ((10 : Int) ^ n) = ((10 ^ n : Nat) : Int) := by simp
      rw [e]
      simp only [Math.IntTy.has, Math.IntTy.hi, Math.IntTy.lo, Math.u64]
      generalize 10 ^ n = x at hlt'
      simp
      omega)
  rw [show Math.u64.w + 1 = 65 from rfl] at this
  rw [this]
  simp

theorem digitLoop_spec (N : Nat) : ∀ (n i : Nat) (pre : List Nat) (m : Nat), pre.length = i → n ≤ 20 → i + n ≤ 31 → n ≤ m →
    digitLoop N n i (pre ++ List.replicate m 0) =
      .ok (pre ++ (digs N n).map (48 + ·) ++ List.replicate (m - n) 0, i + n)
  | 0, i, pre, m, _, _, _, _ => by simp [digitLoop, digs]
  | n + 1, i, pre, m, h1, h2, h3, h4 => by
    obtain ⟨m, rfl⟩ : ∃ k, m = k + 1 := ⟨m - 1, by omega⟩
    unfold digitLoop
    rw [if_pos (by unfold maxLen; omega), pow_ten (by omega)]
    have hp : ¬ (((10 ^ n : Nat) : Int) = 0) := by
      have : 0 < (10 : Nat) ^ n := Nat.pow_pos (by omega)
      omega
    show (if (((10 ^ n : Nat) : Int) = 0) then _ else if i < _ then _ else _) = _
    rw [if_neg hp, if_pos (by simp; omega)]
    have hset : (pre ++ List.replicate (m + 1) 0).set i (48 + N / ((10 ^ n : Nat) : Int).toNat % 10) =
        (pre ++ [48 + N / 10 ^ n % 10]) ++ List.replicate m 0 := by
      rw [Int.toNat_natCast, List.set_append_right _ _ (by omega), h1.symm, Nat.sub_self, List.replicate_succ]
      simp
    rw [hset, digitLoop_spec N n (i + 1) _ m (by simp [h1]) (by omega) (by omega) (by omega)]
    simp [digs]
    omega

/-- What `pool_name` gives. -/
theorem poolName_eq {N : Nat} (h0 : 0 < N) (h : N < 2 ^ 64) : ∃ n, 0 < n ∧ n ≤ 20 ∧ 10 ^ (n - 1) ≤ N ∧ N < 10 ^ n ∧
    poolName N = .ok ([80, 111, 111, 108, 60] ++ (digs N n).map (48 + ·) ++ [62] ++ List.replicate (26 - n) 0) := by
  obtain ⟨n, h1, h2, h3, h4⟩ := countLoop_spec 64 N 0 (Nat.lt_trans h (by decide))
  have hn := h4 h0
  have hn20 : n ≤ 20 := by
    apply Classical.byContradiction
    intro hc
    have h5 : (10 : Nat) ^ 20 ≤ 10 ^ (n - 1) := Nat.pow_le_pow_right (by omega) (by omega)
    have h6 := h3 hn
    have h7 : (2 : Nat) ^ 64 ≤ 10 ^ 20 := by decide
    omega
  refine ⟨n, hn, hn20, h3 hn, h2, ?_⟩
  unfold poolName
  rw [h1, Nat.zero_add]
  have hd := digitLoop_spec N n 5 [80, 111, 111, 108, 60] 27 rfl hn20 (by omega) (by omega)
  show (digitLoop N n 5 ([80, 111, 111, 108, 60] ++ List.replicate 27 0) >>= _) = _
  rw [hd]
  show (if 5 + n < _ then _ else _) = _
  rw [if_pos (by simp [digs_len]; omega)]
  obtain ⟨k, hk⟩ : ∃ k, 27 - n = k + 1 := ⟨26 - n, by omega⟩
  have hk' : 26 - n = k := by omega
  rw [hk, hk', List.set_append_right _ _ (by simp [digs_len]; omega)]
  have : 5 + n - ([80, 111, 111, 108, 60] ++ (digs N n).map (48 + ·)).length = 0 := by simp [digs_len]; omega
  rw [this, List.replicate_succ]
  simp
  rfl

end Rpp.PoolName
