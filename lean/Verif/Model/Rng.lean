import Verif.Model.Hash

/-!
# Model: streams of random numbers

The rest of `rpp/rng.h`: seeding, `integer`, `unit` with its scaling, `coin_flip`, and several draws.
-/

namespace Rpp.RNG
open Rpp Rpp.Math

/-- `Stream::seed()` (`rpp/rng.h:21-23`) from `Thread::this_id()` and `Log::sys_time()`. The two arguments of the outer `hash` are
hashes already and are hashed again. -/
def seedOf (id time : BitVec 64) : BitVec 64 :=
  Hash.hashMany [Hash.hashUnsigned (Hash.hashUnsigned id), Hash.hashUnsigned (Hash.hashUnsigned time)]

/-- `Stream::integer` (`rpp/rng.h:53-56`): value and new state. -/
def integer (t : IntTy) (state : BitVec 64) : Int × BitVec 64 := (conv t (next state).toNat, next state)

/-- The values of the first `n` calls of `operator()` (`rpp/rng.h:16-19`) of a stream with this state. -/
def draws : Nat → BitVec 64 → List (BitVec 64)
  | 0, _ => []
  | n + 1, state => next state :: draws n (next state)

/-- The values of the first `n` calls of `integer` (`rpp/rng.h:53-56`) of a stream with this state. -/
def integers (t : IntTy) : Nat → BitVec 64 → List Int
  | 0, _ => []
  | n + 1, state => (integer t state).1 :: integers t n (integer t state).2

/-- The values of the first `n` calls of `range` (`rpp/rng.h:58-62`) of a stream with this state. -/
def ranges (t : IntTy) (min max : Int) : Nat → BitVec 64 → Res (List Int)
  | 0, _ => .ok []
  | n + 1, state => do
    let r ← range t min max state
    let rest ← ranges t min max n r.2
    return r.1 :: rest

/-- `unit<f32>` (`rpp/rng.h:28-38`); `rnd` is how the product is rounded. -/
def unit32 (rnd : Rat → Rat) (state : BitVec 64) : Rat := rnd (unitBits32 state * (1 / 10 ^ 24))

/-- `unit<f64>` (`rpp/rng.h:34-37`). -/
def unit64 (rnd : Rat → Rat) (state : BitVec 64) : Rat := rnd (unitBits64 state * (1 / 10 ^ 53))

/-- `coin_flip<f32>(p)` (`rpp/rng.h:40-43`). -/
def coin32 (rnd : Rat → Rat) (p : Rat) (state : BitVec 64) : Bool := decide (unit32 rnd state < p)

/-- `coin_flip<f64>(p)` (`rpp/rng.h:40-43`). -/
def coin64 (rnd : Rat → Rat) (p : Rat) (state : BitVec 64) : Bool := decide (unit64 rnd state < p)

end Rpp.RNG
