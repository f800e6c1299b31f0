import Verif.Model.Mpool

/-! What is meant by the objects of a value. -/

namespace Rpp
namespace Mp

/-- One if the thread is making an object of value `v`. -/
def Pc.pend (v : Nat) : Pc → Nat
  | .mkLock w | .mkHead w | .mkNext w _ | .mkUnlock w _ | .mkNew w _ => if w = v then 1 else 0
  | _ => 0

/-- The objects of value `v`, made and under way. -/
def vals (s : St) (v : Nat) : Nat := (s.objs.map Prod.snd).count v + (s.thr.map (Pc.pend v)).sum

end Mp
end Rpp
