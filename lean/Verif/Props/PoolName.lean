import Verif.Proof.PoolName

/-!
# The names of the object pools (C111)
-/

namespace Rpp.Props
open Rpp Rpp.PoolName

/-- C111. For every block size the name is `Pool<`, the decimal digits of the size without leading zeros, `>`; it fits into the
32 characters with a zero after it. -/
theorem C111_name {N : Nat} (h0 : 0 < N) (h : N < 2 ^ 64) : ∃ ds : List Nat,
    ds.foldl (fun v d => 10 * v + d) 0 = N ∧ (∀ d ∈ ds, d < 10) ∧ ds.head? ≠ some 0 ∧ ds.length ≤ 20 ∧
    poolName N = .ok ("Pool<".toList.map Char.toNat ++ ds.map ('0'.toNat + ·) ++ ['>'.toNat] ++ List.replicate (26 - ds.length) 0) := by
  obtain ⟨n, h1, h2, h3, h4, h5⟩ := poolName_eq h0 h
  refine ⟨digs N n, ?_, digs_lt N n, ?_, by rw [digs_len]; exact h2, by rw [digs_len]; exact h5⟩
  · rw [digs_value, Nat.zero_mul, Nat.zero_add, Nat.mod_eq_of_lt h4]
  · obtain ⟨n, rfl⟩ : ∃ k, n = k + 1 := ⟨n - 1, by omega⟩
    rw [Nat.add_sub_cancel] at h3
    have hp : 0 < (10 : Nat) ^ n := Nat.pow_pos (by omega)
    have h6 : 0 < N / 10 ^ n := Nat.div_pos h3 hp
    have h7 : N / 10 ^ n < 10 := by rw [Nat.div_lt_iff_lt_mul hp, Nat.mul_comm, ← Nat.pow_succ]; exact h4
    simp [digs]
    omega

/-- C111. Pools of different block sizes have different names. -/
theorem C111_distinct {N M : Nat} (hN : 0 < N ∧ N < 2 ^ 64) (hM : 0 < M ∧ M < 2 ^ 64) (h : poolName N = poolName M) : N = M := by
  obtain ⟨ds, h1, h2, _, h3, h4⟩ := C111_name hN.1 hN.2
  obtain ⟨es, k1, k2, _, k3, k4⟩ := C111_name hM.1 hM.2
  rw [h4, k4] at h
  have h := Except.ok.inj h
  have hlt : ∀ (ds es : List Nat) (r s : List Nat), (∀ d ∈ ds, d < 10) → (∀ d ∈ es, d < 10) →
      ds.map ('0'.toNat + ·) ++ '>'.toNat :: r = es.map ('0'.toNat + ·) ++ '>'.toNat :: s → ds = es := by
    intro ds
    induction ds with
    | nil =>
      intro es r s _ he hh
      cases es with
      | nil => rfl
      | cons e es =>
        have h5 : '>'.toNat = '0'.toNat + e := by simpa using (List.cons.inj hh).1
        have h6 := he e (.head _)
        have h7 : '>'.toNat = 62 := by decide
        have h8 : '0'.toNat = 48 := by decide
        omega
    | cons d ds ih =>
      intro es r s hd he hh
      cases es with
      | nil =>
        have h5 : '0'.toNat + d = '>'.toNat := by simpa using (List.cons.inj hh).1
        have h6 := hd d (.head _)
        have h7 : '>'.toNat = 62 := by decide
        have h8 : '0'.toNat = 48 := by decide
        omega
      | cons e es =>
        have h5 : '0'.toNat + d = '0'.toNat + e := (List.cons.inj hh).1
        have h6 := ih es r s (fun d h => hd d (.tail _ h)) (fun d h => he d (.tail _ h)) (List.cons.inj hh).2
        have : d = e := by omega
        rw [this, h6]
  simp only [List.append_assoc, List.singleton_append, List.append_cancel_left_eq] at h
  rw [← h1, ← k1, hlt ds es _ _ h2 k2 h]

example : poolName 4096 = .ok ("Pool<4096>".toList.map Char.toNat ++ List.replicate 22 0) := by decide +kernel
example : poolName (2 ^ 64 - 1) = .ok ("Pool<18446744073709551615>".toList.map Char.toNat ++ List.replicate 6 0) := by decide +kernel

end Rpp.Props
