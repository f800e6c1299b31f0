import Verif.Proof.NetWin
import Verif.Props.Str

/-!
# C125, C126: sockets on Windows, addresses
-/

namespace Rpp.Props

open Rpp.NetWin
open Rpp.Net hiding recv send

/-! ## C125: `Net::Udp` on Windows

Full statement: every datagram that arrives is reported with its length, its bytes at the front of the packet; nothing is
reported exactly when nothing has arrived; `send` hands over the given bytes or reports that it did not. -/

/-- The length reported is at most 1472, whatever the kernel answers. -/
theorem C125_length {buf : List UInt8} (hb : buf.length = mtu) (k : Kernel) {n : Nat} (h : (recv buf k).1 = some n) :
    n ≤ 1472 ∧ (recv buf k).2.length = 1472 := by
  cases k with
  | wouldBlock => cases h
  | error => cases h
  | datagram b =>
    by_cases hl : b.length ≤ mtu
    · rw [recv_fits hb hl] at h ⊢
      cases h
      exact ⟨hl, by rw [List.length_append, List.length_drop, hb]; unfold mtu at hl ⊢; omega⟩
    · rw [recv_long hb (by omega)] at h
      cases h

/-- A loop that receives until there is nothing sees every datagram that has arrived, in order and whole, as long as they fit.
`_partial`: without longer datagrams and errors, see `C125_false`. -/
theorem C125_poll_partial {buf : List UInt8} (hb : buf.length = mtu) {ds : List (List UInt8)}
    (hd : ∀ b ∈ ds, b.length ≤ mtu) (rest : List Kernel) :
    poll recv buf (ds.map .datagram ++ .wouldBlock :: rest) = ds := by
  obtain ⟨_, _, h⟩ := poll_fits (rest := .wouldBlock :: rest) hb hd
  rw [h]
  exact List.append_nil _

example : poll recv (List.replicate mtu 0) [.datagram [1, 2, 3], .datagram [], .datagram [7], .wouldBlock] =
    [[1, 2, 3], [], [7]] :=
  C125_poll_partial (ds := [[1, 2, 3], [], [7]]) List.length_replicate (by decide) []

/-- The property is false: a datagram that does not fit is reported as if there were nothing although it has overwritten the
packet, and so is an error; the loop ends there and leaves the datagrams behind it, for every such datagram. -/
theorem C125_false {buf : List UInt8} (hb : buf.length = mtu) :
    (∀ b : List UInt8, mtu < b.length → recv buf (.datagram b) = (none, b.take mtu)) ∧
    ∀ (ds : List (List UInt8)) (k : Kernel) (rest : List Kernel), (∀ b ∈ ds, b.length ≤ mtu) →
      (k = .error ∨ ∃ b : List UInt8, mtu < b.length ∧ k = .datagram b) →
      poll recv buf (ds.map .datagram ++ k :: rest) = ds := by
  refine ⟨fun b hl => recv_long hb hl, fun ds k rest hd hk => ?_⟩
  obtain ⟨buf', h1, h⟩ := poll_fits (rest := k :: rest) hb hd
  rw [h]
  rcases hk with rfl | ⟨b, hl, rfl⟩
  · exact List.append_nil _
  · rw [poll, recv_long h1 hl]
    exact List.append_nil _

example : poll recv (List.replicate mtu 0) [.datagram [1], .datagram (List.replicate 1473 5), .datagram [2]] = [[1]] :=
  (C125_false List.length_replicate).2 [[1]] (.datagram (List.replicate 1473 5)) [.datagram [2]] (by decide)
    (.inr ⟨_, by rw [List.length_replicate]; decide, rfl⟩)

/-- `send` of at most 1472 bytes hands over the first `length` bytes and returns their number, or returns 2^64 − 1 if the
kernel takes none; from 1473 to 2^31 − 1 bytes are read behind the packet; above, the length wraps at 32 bits. -/
theorem C125_send {buf : List UInt8} (hb : buf.length = mtu) (n : Nat) :
    (n ≤ 1472 → send buf n true = .ok (some (buf.take n), n)) ∧
    (n ≤ 1472 → send buf n false = .ok (none, 2 ^ 64 - 1)) ∧
    (1472 < n → n < 2 ^ 31 → ∀ ok, send buf n ok = .error .ub) ∧
    (2 ^ 31 ≤ n → n < 2 ^ 32 → ∀ ok, send buf n ok = .ok (none, 2 ^ 64 - 1)) ∧
    ∀ ok, send buf (n + 2 ^ 32) ok = send buf n ok := by
  have hm : mtu = 1472 := rfl
  have hx : ((-1 : Int) % 2 ^ 64).toNat = 2 ^ 64 - 1 := rfl
  have hs : n < 2 ^ 31 → toI32 n = n := by intro h; unfold toI32; omega
  refine ⟨fun h => ?_, fun h => ?_, fun h h' ok => ?_, fun h h' ok => ?_, fun ok => ?_⟩
  · unfold send; dsimp only
    rw [hs (by omega), if_neg (by omega), Int.toNat_natCast, if_pos (by omega)]; rfl
  · unfold send; dsimp only
    rw [hs (by omega), if_neg (by omega), Int.toNat_natCast, if_pos (by omega)]; rfl
  · unfold send; dsimp only
    rw [hs (by omega), if_neg (by omega), Int.toNat_natCast, if_neg (by omega)]
  · unfold send; dsimp only
    rw [if_pos (by unfold toI32; omega), hx]
  · have e : toI32 (n + 2 ^ 32) = toI32 n := by unfold toI32; omega
    unfold send; dsimp only
    rw [e]

example : send (List.replicate mtu 9) 3 true = .ok (some [9, 9, 9], 3) :=
  (C125_send List.length_replicate 3).1 (by decide)

/-! ## C126: `Net::Address` from text

Full statement: the address is the one spelled by the bytes of the view; text that spells none is noticed. -/

open Rpp.Address

/-- Windows: the address is the one spelled by the bytes of the view (before the first zero byte, if any), wherever the view
points. What spells none becomes the zero address. -/
theorem C126_windows {A : Type} (pton : List Byte → Option A) (zero : A) {v : View} (hv : v.Valid) :
    Address.windows pton zero v = .ok ((pton (v.bytes.takeWhile (· != 0#8))).getD zero) := by
  obtain ⟨r, h1, h2, h3⟩ := C42_terminate hv
  unfold Address.windows
  simp only [h1, bind, Except.bind]
  rw [h3, mapM_some]
  dsimp only
  rw [text_spec]
  simp only [View.of, List.drop_zero]
  rw [if_pos (by simp), takeWhile_zero]
  dsimp only
  cases pton (v.bytes.takeWhile (· != 0#8)) <;> rfl

example : Address.windows quad [0, 0, 0, 0] ⟨lit "to 10.0.0.12!", 3, 9⟩ = .ok [10, 0, 0, 12] ∧
    Address.windows quad [0, 0, 0, 0] ⟨lit "to 10.0.0.12!", 3, 8⟩ = .ok [10, 0, 0, 1] ∧
    Address.windows quad [0, 0, 0, 0] ⟨lit "to 10.0.0.256", 3, 10⟩ = .ok [0, 0, 0, 0] := by decide +kernel

/-- POSIX: if a zero byte follows the view (as behind a literal) and none is in it, the address is the one spelled by its
bytes, and the program ends if they spell none. `_partial`: other views, see `C126_false`. -/
theorem C126_posix_partial {A : Type} (pton : List Byte → Option A) {v : View}
    (hz : v.mem[v.off + v.len]? = some 0#8) (hn : 0#8 ∉ v.bytes) :
    Address.posix pton v = match pton v.bytes with | some a => .ok a | none => .error .die := by
  have hl : v.off + v.len < v.mem.length := by
    rcases Nat.lt_or_ge (v.off + v.len) v.mem.length with h | h
    · exact h
    · rw [List.getElem?_eq_none h] at hz; cases hz
  have e : v.mem.drop v.off = v.bytes ++ 0#8 :: v.mem.drop (v.off + v.len + 1) := by
    rw [List.getElem?_eq_getElem hl, Option.some.injEq] at hz
    rw [← hz, ← List.drop_eq_getElem_cons hl, ← List.drop_drop]
    exact (List.take_append_drop v.len _).symm
  unfold Address.posix
  rw [text_spec, e, if_pos (by simp), takeWhile_stop _ _ hn]
  simp only [bind, Except.bind]
  cases pton v.bytes <;> rfl

example : Address.posix quad ⟨lit "to 10.0.0.12" ++ [0#8], 3, 9⟩ = .ok [10, 0, 0, 12] ∧
    Address.posix quad ⟨lit "to 10.0.0.256" ++ [0#8], 3, 10⟩ = .error .die := by decide +kernel

/-- The property is false on POSIX: the length of the view is never looked at, so every view that starts at the same byte is the
same address; without a zero byte behind it, the read leaves the block. -/
theorem C126_false :
    (∀ {A : Type} (pton : List Byte → Option A) (mem : List Byte) (off len len' : Nat),
      Address.posix pton ⟨mem, off, len⟩ = Address.posix pton ⟨mem, off, len'⟩) ∧
    (∀ {A : Type} (pton : List Byte → Option A) (v : View), 0#8 ∉ v.mem.drop v.off →
      Address.posix pton v = .error .ub) ∧
    (quad (View.bytes ⟨lit "10.0.0.12" ++ [0#8], 0, 8⟩) = some [10, 0, 0, 1] ∧
      Address.posix quad ⟨lit "10.0.0.12" ++ [0#8], 0, 8⟩ = .ok [10, 0, 0, 12]) := by
  refine ⟨fun pton mem off len len' => ?_, fun pton v h => ?_, by decide +kernel⟩
  · unfold Address.posix
    rw [text_spec, text_spec]
  · unfold Address.posix
    rw [text_spec, if_neg h]
    rfl

end Rpp.Props
