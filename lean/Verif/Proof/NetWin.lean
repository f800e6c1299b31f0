import Verif.Model.NetWin
import Verif.Proof.Str
import Verif.Spec.Str

/-!
# Lemmas for Windows sockets and addresses
-/

namespace Rpp.Address

/-- Reading up to the zero byte: the bytes before it, if there is one. -/
theorem cstr_spec (v : View) : ∀ fuel i, v.mem.length < v.off + i + fuel →
    cstr v fuel i = if 0#8 ∈ v.mem.drop (v.off + i) then .ok ((v.mem.drop (v.off + i)).takeWhile (· != 0#8))
      else .error .ub
  | 0, i, h => by
    rw [List.drop_eq_nil_of_le (by omega)]
    rfl
  | fuel + 1, i, h => by
    unfold cstr View.raw
    by_cases hi : v.off + i < v.mem.length
    · rw [List.getElem?_eq_getElem hi, List.drop_eq_getElem_cons hi]
      simp only [bind, Except.bind]
      by_cases hz : v.mem[v.off + i] = 0#8
      · rw [if_pos hz, if_pos (by simp [hz]), List.takeWhile_cons_of_neg (by simp [hz])]
        rfl
      · rw [if_neg hz, cstr_spec v fuel (i + 1) (by omega), ← Nat.add_assoc]
        have e : (0#8 ∈ v.mem[v.off + i] :: v.mem.drop (v.off + i + 1)) = (0#8 ∈ v.mem.drop (v.off + i + 1)) := by
          rw [List.mem_cons]; exact propext ⟨fun h => h.resolve_left (Ne.symm hz), .inr⟩
        rw [List.takeWhile_cons_of_pos (by simp [hz])]
        simp only [e]
        by_cases hm : 0#8 ∈ v.mem.drop (v.off + i + 1)
        · rw [if_pos hm, if_pos hm]; rfl
        · rw [if_neg hm, if_neg hm]
    · rw [List.getElem?_eq_none (by omega), List.drop_eq_nil_of_le (by omega)]
      rfl

theorem text_spec (v : View) :
    text v = if 0#8 ∈ v.mem.drop v.off then .ok ((v.mem.drop v.off).takeWhile (· != 0#8)) else .error .ub :=
  cstr_spec v _ 0 (by omega)

theorem mapM_some (l : List Byte) : (l.map some).mapM (fun x => x) = some l := by
  induction l with
  | nil => rfl
  | cons a l ih => rw [List.map_cons, List.mapM_cons, ih]; rfl

theorem takeWhile_zero (l : List Byte) : (l ++ [0#8]).takeWhile (· != 0#8) = l.takeWhile (· != 0#8) := by
  induction l with
  | nil => rfl
  | cons a l ih =>
    rw [List.cons_append]
    by_cases h : a = 0#8
    · rw [List.takeWhile_cons_of_neg (by simp [h]), List.takeWhile_cons_of_neg (by simp [h])]
    · rw [List.takeWhile_cons_of_pos (by simp [h]), List.takeWhile_cons_of_pos (by simp [h]), ih]

theorem takeWhile_stop (l r : List Byte) (h : 0#8 ∉ l) : (l ++ 0#8 :: r).takeWhile (· != 0#8) = l := by
  induction l with
  | nil => rfl
  | cons a l ih =>
    rw [List.mem_cons, not_or] at h
    rw [List.cons_append, List.takeWhile_cons_of_pos (by simp [Ne.symm h.1]), ih h.2]

end Rpp.Address

namespace Rpp.NetWin
open Rpp.Net

theorem recv_fits {buf : List UInt8} (hb : buf.length = mtu) {b : List UInt8} (hl : b.length ≤ mtu) :
    recv buf (.datagram b) = (some b.length, b ++ buf.drop b.length) := by
  have h1 : (((b.length : Nat) : Int) % 2 ^ 64).toNat = b.length := by unfold mtu at hl; omega
  unfold recv recvfrom
  dsimp only
  rw [hb, if_pos hl, if_neg (by omega), h1, List.take_of_length_le hl]

theorem recv_long {buf : List UInt8} (hb : buf.length = mtu) {b : List UInt8} (hl : mtu < b.length) :
    recv buf (.datagram b) = (none, b.take mtu) := by
  unfold recv recvfrom
  dsimp only
  rw [hb, if_neg (c := b.length ≤ mtu) (by omega), if_pos rfl, List.drop_eq_nil_of_le (by omega), List.append_nil]

theorem poll_fits {rest : List Kernel} : ∀ {ds : List (List UInt8)} {buf : List UInt8}, buf.length = mtu →
    (∀ b ∈ ds, b.length ≤ mtu) →
    ∃ buf', buf'.length = mtu ∧ poll recv buf (ds.map .datagram ++ rest) = ds ++ poll recv buf' rest
  | [], buf, hb, _ => ⟨buf, hb, rfl⟩
  | b :: ds, buf, hb, h => by
    have hl := h b (List.mem_cons_self ..)
    obtain ⟨buf', h1, h2⟩ := poll_fits (rest := rest) (ds := ds) (buf := b ++ buf.drop b.length)
      (by rw [List.length_append, List.length_drop]; omega) (fun c hc => h c (List.mem_cons_of_mem _ hc))
    refine ⟨buf', h1, ?_⟩
    rw [List.map_cons, List.cons_append, poll, recv_fits hb hl]
    dsimp only
    rw [h2, List.take_left' rfl, List.cons_append]

end Rpp.NetWin
