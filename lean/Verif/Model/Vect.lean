import Verif.Model.Mem

/-!
# Model: `Vect<T, N>` for every element type and length

`rpp/vmath.h:30-354, 498-560, 889-931`, `rpp/impl/simd.cpp:84-154`. The element type is arbitrary: its arithmetic is a
record of operations which may have undefined results (`Res`), so the model covers `f32` with rounding as well as `i32`
with overflow. An array `data[N]` is a function of the index; cells from `N` on do not exist and keep the value they
were given. `simd` stands for `is_simd` (`Same<T, f32> && N == 4`).
-/

namespace Rpp.Vect

/-- The arithmetic of an element type. -/
structure Ops (T : Type) where
  zero : T
  add : T → T → Res T
  sub : T → T → Res T
  mul : T → T → Res T
  div : T → T → Res T
  neg : T → Res T
  abs : T → Res T
  floor : T → Res T
  ceil : T → Res T
  sqrt : T → Res T
  lt : T → T → Bool
  eq : T → T → Bool

/-- The four operators. -/
inductive Op where
  | add | sub | mul | div
deriving DecidableEq

/-- The operator of the element type. -/
def Ops.app {T : Type} (o : Ops T) : Op → T → T → Res T
  | .add => o.add
  | .sub => o.sub
  | .mul => o.mul
  | .div => o.div

variable {T U : Type}

/-- `data[k] = x`. -/
def upd (a : Nat → T) (k : Nat) (x : T) : Nat → T := fun i => if i = k then x else a i

/-- `for(u64 i = 0; i < n; i++) ...`. -/
def loop {σ : Type} (f : Nat → σ → Res σ) : Nat → σ → Res σ
  | 0, s => .ok s
  | n + 1, s => do f n (← loop f n s)

/-- `F32x4::set1` (`rpp/impl/simd.cpp:90-92`). -/
def set1 (x : T) : Nat → T := fun _ => x

/-- A lane-wise operation on `F32x4` (`rpp/impl/simd.cpp:102-136`): `a` supplies the cells that do not exist. -/
def lanes2 (f : T → T → Res T) (a b : Nat → T) : Res (Nat → T) := do
  let x ← f (a 0) (b 0)
  let y ← f (a 1) (b 1)
  let z ← f (a 2) (b 2)
  let w ← f (a 3) (b 3)
  return fun i => match i with
    | 0 => x
    | 1 => y
    | 2 => z
    | 3 => w
    | i => a i

/-- The same with one operand. -/
def lanes1 (f : T → Res T) (a : Nat → T) : Res (Nat → T) := lanes2 (fun x _ => f x) a a

/-- `F32x4::dp` (`rpp/impl/simd.cpp:138-146`). -/
def dp (o : Ops T) (a b : Nat → T) : Res T := do
  let m ← lanes2 o.mul a b
  loop (fun i r => o.add r (m i)) 4 o.zero

/-- `F32x4::cmpeq_all` (`rpp/impl/simd.cpp:148-152`). -/
def cmpeq_all (o : Ops T) (a b : Nat → T) : Bool := o.eq (a 0) (b 0) && o.eq (a 1) (b 1) && o.eq (a 2) (b 2) && o.eq (a 3) (b 3)

/-! ### Operators -/

/-- `operator+=(Vect)` and its kin (`rpp/vmath.h:84-111`): the vector afterwards, which is also returned. -/
def assignV (o : Ops T) (simd : Bool) (n : Nat) (op : Op) (this v : Nat → T) : Res (Nat → T) :=
  if simd then lanes2 (o.app op) this v
  else loop (fun i t => do return upd t i (← o.app op (t i) (v i))) n this

/-- `operator+=(T)` and its kin (`rpp/vmath.h:113-140`). -/
def assignS (o : Ops T) (simd : Bool) (n : Nat) (op : Op) (this : Nat → T) (s : T) : Res (Nat → T) :=
  if simd then lanes2 (o.app op) this (set1 s)
  else loop (fun i t => do return upd t i (← o.app op (t i) s)) n this

/-- `operator+(Vect) const` and its kin (`rpp/vmath.h:142-177`). `r` starts zeroed (`rpp/vmath.h:41-46`). -/
def binV (o : Ops T) (simd : Bool) (n : Nat) (op : Op) (this v : Nat → T) : Res (Nat → T) :=
  if simd then lanes2 (o.app op) this v
  else loop (fun i r => do return upd r i (← o.app op (this i) (v i))) n (set1 o.zero)

/-- `operator+(T) const` and its kin (`rpp/vmath.h:179-214`). -/
def binS (o : Ops T) (simd : Bool) (n : Nat) (op : Op) (this : Nat → T) (s : T) : Res (Nat → T) :=
  if simd then lanes2 (o.app op) this (set1 s)
  else loop (fun i r => do return upd r i (← o.app op (this i) s)) n (set1 o.zero)

/-- `operator+(T, Vect)` and its kin (`rpp/vmath.h:889-931`). -/
def binL (o : Ops T) (simd : Bool) (n : Nat) : Op → T → (Nat → T) → Res (Nat → T)
  | .add, s, v =>
    if simd then lanes2 o.add v (set1 s) else loop (fun i r => do return upd r i (← o.add (v i) s)) n (set1 o.zero)
  | .sub, s, v =>
    if simd then lanes2 o.sub v (set1 s) else loop (fun i r => do return upd r i (← o.sub s (v i))) n (set1 o.zero)
  | .mul, s, v =>
    if simd then lanes2 o.mul v (set1 s) else loop (fun i r => do return upd r i (← o.mul (v i) s)) n (set1 o.zero)
  | .div, s, v =>
    if simd then lanes2 o.div v (set1 s) else loop (fun i r => do return upd r i (← o.div s (v i))) n (set1 o.zero)

/-- Unary `operator-` (`rpp/vmath.h:245-253`): the operand afterwards, which is also returned. -/
def neg (o : Ops T) (simd : Bool) (n : Nat) (this : Nat → T) : Res (Nat → T) :=
  if simd then lanes2 o.sub (set1 o.zero) this
  else loop (fun i t => do return upd t i (← o.neg (t i))) n this

/-- `abs()`, `floor()`, `ceil()` and `Math::abs` (`rpp/vmath.h:235-244, 315-335, 524-535`). -/
def unary (o : Ops T) (f : T → Res T) (simd : Bool) (n : Nat) (this : Nat → T) : Res (Nat → T) :=
  if simd then lanes1 f this
  else loop (fun i r => do return upd r i (← f (this i))) n (set1 o.zero)

/-- `norm2()` (`rpp/vmath.h:293-301`). -/
def norm2 (o : Ops T) (simd : Bool) (n : Nat) (this : Nat → T) : Res T :=
  if simd then dp o this this else loop (fun i r => do o.add r (← o.mul (this i) (this i))) n o.zero

/-- `Math::dot` (`rpp/vmath.h:537-546`). -/
def dot (o : Ops T) (simd : Bool) (n : Nat) (x y : Nat → T) : Res T :=
  if simd then dp o x y else loop (fun i r => do o.add r (← o.mul (x i) (y i))) n o.zero

/-- `norm()` (`rpp/vmath.h:337-341`). -/
def norm (o : Ops T) (simd : Bool) (n : Nat) (this : Nat → T) : Res T := do o.sqrt (← norm2 o simd n this)

/-- `normalize()` (`rpp/vmath.h:255-264`): the vector afterwards, which is also returned. -/
def normalize (o : Ops T) (simd : Bool) (n : Nat) (this : Nat → T) : Res (Nat → T) := do
  let l ← norm o simd n this
  if simd then lanes2 o.div this (set1 l)
  else loop (fun i t => do return upd t i (← o.div (t i) l)) n this

/-- `unit()` (`rpp/vmath.h:266-276`). -/
def unit (o : Ops T) (simd : Bool) (n : Nat) (this : Nat → T) : Res (Nat → T) := do
  let l ← norm o simd n this
  if simd then lanes2 o.div this (set1 l)
  else loop (fun i r => do return upd r i (← o.div (this i) l)) n (set1 o.zero)

/-- `proj()` (`rpp/vmath.h:278-284`). -/
def proj (o : Ops T) (n : Nat) (this : Nat → T) : Res (Nat → T) :=
  loop (fun i r => do return upd r i (← o.div (this i) (this (n - 1)))) (n - 1) (set1 o.zero)

/-- `as<U>()` (`rpp/vmath.h:286-291`). -/
def as (zero : U) (cast : T → Res U) (n : Nat) (this : Nat → T) : Res (Nat → U) :=
  loop (fun i r => do return upd r i (← cast (this i))) n (set1 zero)

/-- `Vect(T x)` (`rpp/vmath.h:54-56`). -/
def fill (o : Ops T) (n : Nat) (x : T) : Res (Nat → T) := loop (fun i r => .ok (upd r i x)) n (set1 o.zero)

/-- `Vect(Vect<T, N - 1> f, T s)` (`rpp/vmath.h:58-63`). -/
def append (o : Ops T) (n : Nat) (f : Nat → T) (s : T) : Res (Nat → T) := do
  let r ← loop (fun i r => .ok (upd r i (f i))) (n - 1) (set1 o.zero)
  return upd r (n - 1) s

/-- `Math::min(T, T)` (`rpp/math.h:16-19`). -/
def min1 (o : Ops T) (a b : T) : T := if o.lt a b then a else b
/-- `Math::max(T, T)` (`rpp/math.h:21-24`). -/
def max1 (o : Ops T) (a b : T) : T := if o.lt b a then a else b

/-- `min()` (`rpp/vmath.h:303-307`); the loop starts at 1. -/
def minAll (o : Ops T) (n : Nat) (this : Nat → T) : Res T :=
  loop (fun i r => .ok (min1 o r (this (i + 1)))) (n - 1) (this 0)

/-- `max()` (`rpp/vmath.h:309-313`). -/
def maxAll (o : Ops T) (n : Nat) (this : Nat → T) : Res T :=
  loop (fun i r => .ok (max1 o r (this (i + 1)))) (n - 1) (this 0)

/-- `Math::min(Vect, Vect)` (`rpp/vmath.h:502-511`). The SIMD instruction is taken to choose like `Math::min` (they differ
for NaN and for zeros of different sign). -/
def minV (o : Ops T) (simd : Bool) (n : Nat) (x y : Nat → T) : Res (Nat → T) :=
  if simd then lanes2 (fun a b => .ok (min1 o a b)) x y
  else loop (fun i r => .ok (upd r i (min1 o (x i) (y i)))) n (set1 o.zero)

/-- `Math::max(Vect, Vect)` (`rpp/vmath.h:513-522`). -/
def maxV (o : Ops T) (simd : Bool) (n : Nat) (x y : Nat → T) : Res (Nat → T) :=
  if simd then lanes2 (fun a b => .ok (max1 o a b)) x y
  else loop (fun i r => .ok (upd r i (max1 o (x i) (y i)))) n (set1 o.zero)

/-- `Math::lerp` (`rpp/vmath.h:548-551`). -/
def lerp (o : Ops T) (simd : Bool) (n : Nat) (min max : Nat → T) (dist : T) : Res (Nat → T) := do
  let d ← binV o simd n .sub max min
  let e ← binS o simd n .mul d dist
  binV o simd n .add min e

/-- `Math::clamp` (`rpp/vmath.h:553-556`). -/
def clamp (o : Ops T) (simd : Bool) (n : Nat) (x min max : Nat → T) : Res (Nat → T) := do
  maxV o simd n (← minV o simd n x max) min

/-- `operator==` without SIMD (`rpp/vmath.h:219-223`): the loop with its early return; `k` cells are left. -/
def eqLoop (o : Ops T) (a b : Nat → T) : Nat → Nat → Bool
  | 0, _ => true
  | k + 1, i => if !o.eq (a i) (b i) then false else eqLoop o a b k (i + 1)

/-- `operator!=` without SIMD (`rpp/vmath.h:228-232`). -/
def neLoop (o : Ops T) (a b : Nat → T) : Nat → Nat → Bool
  | 0, _ => false
  | k + 1, i => if !o.eq (a i) (b i) then true else neLoop o a b k (i + 1)

/-- `operator==` (`rpp/vmath.h:216-224`). -/
def eqV (o : Ops T) (simd : Bool) (n : Nat) (a b : Nat → T) : Bool := if simd then cmpeq_all o a b else eqLoop o a b n 0

/-- `operator!=` (`rpp/vmath.h:225-233`). -/
def neV (o : Ops T) (simd : Bool) (n : Nat) (a b : Nat → T) : Bool := if simd then !cmpeq_all o a b else neLoop o a b n 0

end Rpp.Vect
