import Verif.Model.Ieee
import Verif.Model.Word

/-!
# Model: durations

`rpp/impl/profile.cpp:6-16`, `rpp/pos/thread_pos.cpp:57-69`, `rpp/w32/thread_w32.cpp:25-41`.
-/

namespace Rpp.Duration

open Rpp.Ieee

/-- `perf_counter` on Linux and macOS (`rpp/pos/thread_pos.cpp:57-65`) from the seconds and nanoseconds of the clock. -/
def counter (sec nsec : Nat) : Nat := wadd (wmul sec 1000000000) nsec

/-- `perf_frequency` on Linux and macOS (`rpp/pos/thread_pos.cpp:67-69`). On Windows it is the number the system gives
(`rpp/w32/thread_w32.cpp:31-41`). -/
def frequency : Nat := 1000000000

/-- Conversions: from `u64` to `f64` and from `f64` to `f32`. -/
def ofU64 (n : Nat) : F := rnd f64 n
def toF32 : F → F
  | .fin x => rnd f32 x
  | x => x

/-- `Profile::ms` (`rpp/impl/profile.cpp:10-12`) with the frequency. -/
def ms (freq duration : Nat) : F := toF32 (div f64 (ofU64 duration) (div f64 (ofU64 freq) (.fin 1000)))

/-- `Profile::s` (`rpp/impl/profile.cpp:14-16`). -/
def s (freq duration : Nat) : F := toF32 (div f64 (ofU64 duration) (ofU64 freq))

end Rpp.Duration
