import Verif.Model.Str

/-! # Specification: the text of a log line -/

namespace Rpp.Spec.LogLine

/-- The levels of messages. -/
inductive Level where
  | info | warn | fatal
  deriving DecidableEq, Repr

/-- Their names. -/
def Level.name : Level → List Byte
  | info => lit "info"
  | warn => lit "warn"
  | fatal => lit "fatal"

/-- The decimal digits of a number. -/
def decimal (n : Nat) : List Byte := lit (toString n)

/-- The codes that turn the text red and back, used for warnings and errors. -/
def red : Level → List Byte
  | .info => []
  | _ => 27#8 :: lit "[0;31m"
def plain : Level → List Byte
  | .info => []
  | _ => 27#8 :: lit "[0m"

/-- A line: the time, the level and the thread, the place in the source, four spaces for each enclosing scope, the message. -/
def line (level : Level) (time : List Byte) (thread : Nat) (file : List Byte) (row indent : Nat) (msg : List Byte) : List Byte :=
  red level ++ time ++ lit " [" ++ level.name ++ lit "/" ++ decimal thread ++ lit "] [" ++ file ++ lit ":" ++ decimal row ++ lit "]: " ++
    List.replicate (4 * indent) (ch ' ') ++ msg ++ plain level ++ [10#8]

end Rpp.Spec.LogLine
