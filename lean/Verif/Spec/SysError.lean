import Verif.Model.SysError

/-!
# Specification: UTF-16
-/

namespace Rpp.Spec.SysErr

open Rpp.SysErr (Wide)

/-- UTF-16 of a character (Unicode standard 3.9, D91). -/
def utf16 (c : Char) : List Wide :=
  if c.val.toNat < 0x10000 then [BitVec.ofNat 16 c.val.toNat]
  else [BitVec.ofNat 16 (0xD800 + (c.val.toNat - 0x10000) / 0x400), BitVec.ofNat 16 (0xDC00 + (c.val.toNat - 0x10000) % 0x400)]

end Rpp.Spec.SysErr
