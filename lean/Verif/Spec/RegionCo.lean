import Verif.Model.RegionCo
import Verif.Spec.Region

/-! # Coroutines whose region scopes do not span a suspension -/

namespace Rpp.RegionCo

/-- With the scopes `os` open, innermost first: every allocation names the innermost scope, every end is
that of the innermost scope, and all are closed at the end. Requests are smaller than `2 ^ 63` bytes and
`d` more scopes fit. -/
def Nested : Nat → List Nat → List Act → Prop
  | _, os, [] => os = []
  | 0, _, .begin _ :: _ => False
  | d + 1, os, .begin b :: as => Nested d (b :: os) as
  | d, os, .alloc b n :: as => os.head? = some b ∧ n < 2 ^ 63 ∧ Nested d os as
  | d, os, .fin b :: as => os.head? = some b ∧ Nested (d + 1) os.tail as

/-- The blocks a coroutine holds, by scope, innermost first, given where the allocator put them. -/
def holding : List (List Spec.MBlock) → List Act → List (Nat × Nat) → List (List Spec.MBlock)
  | st, .begin _ :: as, out => holding ([] :: st) as out
  | top :: st, .alloc _ n :: as, p :: out => holding ((⟨p.1, p.2, n⟩ :: top) :: st) as out
  | _ :: st, .fin _ :: as, out => holding st as out
  | st, _, _ => st

end Rpp.RegionCo
