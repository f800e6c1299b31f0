import Verif.Model.Room

/-!
# Specification: what a container with a capacity promises
-/

namespace Rpp.Room.Spec

/-- The bytes of a block. -/
def bytes : Option Nat → Nat
  | none => 0
  | some b => b

/-- The number of elements an operation asks to have room for, apart from growing. -/
def need (len : Nat) : Op → Nat
  | .ctor n | .make n | .reserve n | .resize n => n
  | .extend n => len + n
  | _ => 0

/-- The length after an operation; `none` where the operation may not be used. Operations a container does not have leave
it as it is. -/
def lenStep (k : Kind) (len : Nat) : Op → Option Nat
  | .ctor _ | .clear => some 0
  | .make n | .resize n => some (if k = .vec then n else len)
  | .extend n => some (if k = .vec then len + n else len)
  | .reserve _ => some len
  | .push => some (len + 1)
  | .pop => if len = 0 then none else some (len - 1)

/-- The length after a program. -/
def lenRun (k : Kind) : Nat → List Op → Option Nat
  | len, [] => some len
  | len, o :: os => (lenStep k len o).bind (lenRun k · os)

/-- Everything the program asks for is fewer than 2^64 bytes. -/
def Small (k : Kind) (sz len : Nat) (ops : List Op) : Prop :=
  ∀ pre o post l, ops = pre ++ o :: post → lenRun k len pre = some l → need l o * sz < 2 ^ 64

end Rpp.Room.Spec
