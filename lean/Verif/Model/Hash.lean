import Verif.Model.Math
import Verif.Model.Vec

/-!
# Model of `rpp/hash.h`, the string hash of `rpp/string0.h`, and `rpp/rng.h`

`u64` values are `BitVec 64`, whose operations are the machine's.
-/

namespace Rpp.Hash
open Rpp

/-- `at ^= (at >> k)`. -/
def xorshift (k : Nat) (x : BitVec 64) : BitVec 64 := x ^^^ (x >>> k)

/-- `squirrel5` (`rpp/hash.h:14-31`). -/
def squirrel5 (x : BitVec 64) : BitVec 64 :=
  let x := x * 0xA278032FB08BA40D#64
  let x := xorshift 9 x
  let x := x + 0x9D9FDC30FD876B1D#64
  let x := xorshift 11 x
  let x := x * 0xEC705118C5FBDA13#64
  let x := xorshift 13 x
  let x := x + 0xDB8BDB77D7DF9811#64
  let x := xorshift 15 x
  let x := x * 0xD8081C73F0FAA127#64
  xorshift 17 x

/-- `hash_combine` (`rpp/hash.h:33-35`). -/
def hash_combine (h1 h2 : BitVec 64) : BitVec 64 := squirrel5 (h1 + h2)

/-- `Hash<I>::hash` for an unsigned type of width `w` (`rpp/hash.h:40-45`). -/
def hashUnsigned {w : Nat} (key : BitVec w) : BitVec 64 := squirrel5 (key.setWidth 64)

/-- `Hash<I>::hash` for a signed type, and `Hash<char>::hash` (`rpp/hash.h:40-52`; `char` is signed
on the supported targets). -/
def hashSigned {w : Nat} (key : BitVec w) : BitVec 64 := squirrel5 (key.signExtend 64)

/-- `Hash<f32>::hash` on the bit pattern (`rpp/hash.h:54-59`). -/
def hashF32 (bits : BitVec 32) : BitVec 64 := squirrel5 (bits.setWidth 64)

/-- `Hash<f64>::hash` on the bit pattern (`rpp/hash.h:61-66`). -/
def hashF64 (bits : BitVec 64) : BitVec 64 := squirrel5 bits

/-- `hash_nonzero` (`rpp/hash.h:87-90`) on the value of `Hash::hash`. -/
def hash_nonzero (h : BitVec 64) : BitVec 64 := h ||| 1#64

/-- `hash(values...)` for at least two values (`rpp/hash.h:92-95`), on their hashes. -/
def hashMany (hs : List (BitVec 64)) : BitVec 64 := squirrel5 (hs.foldl (· + ·) 0)

/-- `hash_literal` (`rpp/hash.h:97-103`); `s` is the literal without its terminating zero. -/
def hash_literal (s : List (BitVec 8)) (seed : BitVec 64) : BitVec 64 :=
  let seed := s.foldl (fun seed c => hash_combine seed (hashSigned c)) seed
  if seed = 0#64 then 1#64 else seed

/-- `Hash<String>::hash`, `Hash<String_View>::hash` (`rpp/string0.h:285-300`). -/
def hashString (s : List (BitVec 8)) : BitVec 64 :=
  s.foldl (fun h c => hash_combine h (hashUnsigned c)) 0#64

end Rpp.Hash

namespace Rpp.RNG
open Rpp Rpp.Math

/-- `Stream::operator()` (`rpp/rng.h:16-19`): new state, which is also the value. -/
def next (state : BitVec 64) : BitVec 64 := Hash.squirrel5 state

/-- `a % b` of C++ in type `t` (after the usual conversions): undefined for `b = 0` and for the least
value divided by -1. -/
def rem (t : IntTy) (a b : Int) : Res Int :=
  if b = 0 then .error .ub
  else if t.usual.signed ∧ b = -1 ∧ a = t.usual.lo then .error .ub
  else .ok (a.tmod b)

/-- `Stream::range` (`rpp/rng.h:58-62`): value and new state. -/
def range (t : IntTy) (min max : Int) (state : BitVec 64) : Res (Int × BitVec 64) := do
  let r := conv t (← arith t (max - min))
  let state := next state
  let m ← rem t (conv t state.toNat) r
  let v := conv t (← arith t (min + m))
  return (v, state)

/-- `vec[i]`, `vec[j]` exchanged: `operator[]` with its assert (`rpp/vec.h:218-225`) and
`rpp::swap` (`rpp/utility.h:630-642`), taken to exchange the two values. -/
def swapAt {α : Type _} (l : List α) (i j : Nat) : Res (List α) :=
  match l[i]?, l[j]? with
  | some x, some y => .ok ((l.set i y).set j x)
  | _, _ => .error .die

/-- `Stream::shuffle` (`rpp/rng.h:45-51`), `n` iterations left, on the contents of the vector. -/
def shuffleLoop {α : Type _} : Nat → Nat → List α → BitVec 64 → Res (List α × BitVec 64)
  | 0, _, l, s => .ok (l, s)
  | n + 1, i, l, s => do
    let (j, s) ← range u64 i l.length s
    let l ← swapAt l i j.toNat
    shuffleLoop n (i + 1) l s

/-- `Stream::shuffle`: the loop bound `vec.length() - 1` wraps for the empty vector. -/
def shuffle {α : Type _} (l : List α) (s : BitVec 64) : Res (List α × BitVec 64) :=
  shuffleLoop (subw 64 l.length 1) 0 l s

/-- `unit<f32>` (`rpp/rng.h:28-38`): the integer that is scaled by `1e-24f`. -/
def unitBits32 (state : BitVec 64) : Nat := (next state >>> 40).toNat
/-- `unit<f64>` (`rpp/rng.h:34-37`): the integer that is scaled by `1e-53`. -/
def unitBits64 (state : BitVec 64) : Nat := (next state >>> 11).toNat

end Rpp.RNG
