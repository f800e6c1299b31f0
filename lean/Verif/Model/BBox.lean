import Verif.Model.Mat4
import Mathlib.Order.Defs.LinearOrder

/-!
# Model: `BBox`

`rpp/vmath.h:775-866`. The scalars are an ordered field here, and rounded numbers in `Verif.Model.BBoxRounded`; `lo` and `hi` are `Limits<f32>::min()` (the lowest finite
value) and `Limits<f32>::max()`.
-/

namespace Rpp.VMath

variable {K : Type}

/-- `BBox` (`rpp/vmath.h:775-782, 865`). -/
structure BBox (K : Type) where
  min : V3 K
  max : V3 K
deriving DecidableEq

/-- `Math::min(f32, f32)` (`rpp/math.h:16-19`). -/
def fmin [LT K] [DecidableLT K] (a b : K) : K := if a < b then a else b
/-- `Math::max(f32, f32)` (`rpp/math.h:21-24`). -/
def fmax [LT K] [DecidableLT K] (a b : K) : K := if a > b then a else b

/-- `Math::min(Vec3, Vec3)` (`rpp/vmath.h:502-511`). -/
def V3.min [LT K] [DecidableLT K] (a b : V3 K) : V3 K := ⟨fmin a.x b.x, fmin a.y b.y, fmin a.z b.z⟩
/-- `Math::max(Vec3, Vec3)` (`rpp/vmath.h:513-522`). -/
def V3.max [LT K] [DecidableLT K] (a b : V3 K) : V3 K := ⟨fmax a.x b.x, fmax a.y b.y, fmax a.z b.z⟩

/-- `BBox()` and `reset` (`rpp/vmath.h:777-778, 789-792`). -/
def BBox.none (lo hi : K) : BBox K := ⟨⟨hi, hi, hi⟩, ⟨lo, lo, lo⟩⟩

/-- `enclose(Vec3)` (`rpp/vmath.h:794-797`). -/
def BBox.enclosePoint [LT K] [DecidableLT K] (b : BBox K) (p : V3 K) : BBox K := ⟨b.min.min p, b.max.max p⟩

/-- `enclose(BBox)` (`rpp/vmath.h:798-801`). -/
def BBox.encloseBox [LT K] [DecidableLT K] (b c : BBox K) : BBox K := ⟨b.min.min c.min, b.max.max c.max⟩

/-- `center` (`rpp/vmath.h:803-805`). -/
def BBox.center [Add K] [Mul K] [OfNat K 2] [Inv K] (b : BBox K) : V3 K := (b.min.add b.max).smul 2⁻¹

/-- `empty` (`rpp/vmath.h:807-809`). -/
def BBox.empty [LT K] [DecidableLT K] (b : BBox K) : Bool :=
  decide (b.min.x > b.max.x) || decide (b.min.y > b.max.y) || decide (b.min.z > b.max.z)

/-- `surface_area` (`rpp/vmath.h:811-815`). -/
def BBox.surface_area [Add K] [Sub K] [Mul K] [Zero K] [OfNat K 2] [LT K] [DecidableLT K] (b : BBox K) : K :=
  if b.empty then 0
  else
    let e := b.max.sub b.min
    2 * (e.x * e.z + e.x * e.y + e.y * e.z)

/-- One turn of the inner loop of `transform` (`rpp/vmath.h:822-830`): `t` is `T[j][i]`. -/
def transformStep [Add K] [Mul K] [LT K] [DecidableLT K] (t amin amax : K) (r : K × K) : K × K :=
  let a := t * amin
  let b := t * amax
  if a < b then (r.1 + a, r.2 + b) else (r.1 + b, r.2 + a)

/-- The inner loop of `transform` for one `i` (`rpp/vmath.h:821-831`). -/
def transformAxis [Add K] [Mul K] [LT K] [DecidableLT K] (t0 t1 t2 t3 : K) (amin amax : V3 K) : K × K :=
  transformStep t2 amin.z amax.z (transformStep t1 amin.y amax.y (transformStep t0 amin.x amax.x (t3, t3)))

/-- `transform` (`rpp/vmath.h:817-833`). -/
def BBox.transform [Add K] [Mul K] [LT K] [DecidableLT K] (b : BBox K) (T : Mat4 K) : BBox K :=
  let x := transformAxis T.c0.x T.c1.x T.c2.x T.c3.x b.min b.max
  let y := transformAxis T.c0.y T.c1.y T.c2.y T.c3.y b.min b.max
  let z := transformAxis T.c0.z T.c1.z T.c2.z T.c3.z b.min b.max
  ⟨⟨x.1, y.1, z.1⟩, ⟨x.2, y.2, z.2⟩⟩

/-- The corners in the order of `project` (`rpp/vmath.h:840-842`). -/
def BBox.corners (b : BBox K) : List (V3 K) :=
  let l := b.min
  let h := b.max
  [⟨l.x, l.y, l.z⟩, ⟨h.x, l.y, l.z⟩, ⟨l.x, h.y, l.z⟩, ⟨l.x, l.y, h.z⟩, ⟨h.x, h.y, l.z⟩, ⟨l.x, h.y, h.z⟩, ⟨h.x, l.y, h.z⟩, ⟨h.x, h.y, h.z⟩]

/-- The state of the loop in `project`: `min_out`, `max_out`, `partially_behind`, `all_behind`. -/
structure Proj (K : Type) where
  minx : K
  miny : K
  maxx : K
  maxy : K
  part : Bool
  all : Bool
deriving DecidableEq

/-- One turn of the loop (`rpp/vmath.h:845-854`). -/
def projStep [Add K] [Mul K] [Zero K] [LT K] [DecidableLT K] (proj : Mat4 K) (s : Proj K) (v : V3 K) : Proj K :=
  let p := proj.mulV3 v
  let s := if p.z < 0 then { s with part := true } else { s with all := false }
  { s with minx := fmin s.minx p.x, miny := fmin s.miny p.y, maxx := fmax s.maxx p.x, maxy := fmax s.maxy p.y }

/-- `project` (`rpp/vmath.h:835-863`): `min_out.x, min_out.y, max_out.x, max_out.y`. -/
def BBox.project [Add K] [Mul K] [Neg K] [Zero K] [One K] [LT K] [DecidableLT K] (lo hi : K) (b : BBox K) (proj : Mat4 K) : K × K × K × K :=
  let s := b.corners.foldl (projStep proj) ⟨hi, hi, lo, lo, false, true⟩
  if s.part && !s.all then (-1, -1, 1, 1)
  else if s.all then (0, 0, 0, 0)
  else (s.minx, s.miny, s.maxx, s.maxy)

end Rpp.VMath
