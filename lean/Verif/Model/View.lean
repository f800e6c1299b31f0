import Verif.Model.Mem

/-!
# Model: views of vectors

`Vec3::xy()`, `yz()` and `Vec4::xy()`, `yz()`, `zw()`, `xyz()`, `yzw()` (`rpp/vmath.h:375-386, 397-427, 439-469`) give a reference to a shorter vector at the
place of one of the components, so that the shorter vector shares its components with the longer one. The components of one vector are
a list. Left out: that the objects behind the references were never made (the accesses are to components of the right type), and that a `Vec4` of `f32` as a
whole computes with all components at once (C142).
-/

namespace Rpp.View

/-- The functions. -/
inductive Name where
  | xy | yz | zw | xyz | yzw
deriving DecidableEq

/-- A reference to a vector: the place of its first component and its length. -/
structure Ref where
  off : Nat
  len : Nat
deriving DecidableEq

/-- The pointer arithmetic of the functions (`rpp/vmath.h:375-386` for length 3, `397-427` and `439-469` for length 4). Vectors of other lengths do
not have them. -/
def Ref.view (r : Ref) : Name → Option Ref
  | .xy => if r.len = 3 ∨ r.len = 4 then some ⟨r.off + 0, 2⟩ else none
  | .yz => if r.len = 3 ∨ r.len = 4 then some ⟨r.off + 1, 2⟩ else none
  | .zw => if r.len = 4 then some ⟨r.off + 2, 2⟩ else none
  | .xyz => if r.len = 4 then some ⟨r.off + 0, 3⟩ else none
  | .yzw => if r.len = 4 then some ⟨r.off + 1, 3⟩ else none

/-- Views of views, as in `v.yzw().yz()`. -/
def Ref.path (r : Ref) : List Name → Option Ref
  | [] => some r
  | n :: ns => do
    let r ← r.view n
    r.path ns

/-- `operator[]` (`rpp/vmath.h:77-82`): no check. Going past the end of the shorter vector is undefined, also where the longer one goes on. -/
def Ref.at {T : Type} (r : Ref) (m : List T) (i : Nat) : Res T :=
  if i < r.len then
    match m[r.off + i]? with
    | some x => .ok x
    | none => .error .ub
  else .error .ub

/-- Writing a component. -/
def Ref.put {T : Type} (r : Ref) (m : List T) (i : Nat) (x : T) : Res (List T) :=
  if i < r.len ∧ r.off + i < m.length then .ok (m.set (r.off + i) x) else .error .ub

/-- A copy of the vector referred to: a parameter passed by value. -/
def Ref.copy {T : Type} (r : Ref) (m : List T) : Nat → Res (List T)
  | 0 => .ok []
  | i + 1 => do
    let l ← r.copy m i
    let x ← r.at m i
    return l ++ [x]

/-- The two share a component and are not the same. -/
def Ref.clash (r q : Ref) : Bool :=
  decide (r.off < q.off + q.len) && decide (q.off < r.off + r.len) && !decide (r = q)

/-- The loop `for(u64 i = 0; i < N; i++) this->data[i] op= ...` (`rpp/vmath.h:84-140`): `f i` is done to component `i`. -/
def Ref.loop {T : Type} (r : Ref) (f : Nat → T → Res T) (m : List T) : Nat → Res (List T)
  | 0 => .ok m
  | i + 1 => do
    let m ← r.loop f m i
    let x ← r.at m i
    let y ← f i x
    r.put m i y

/-- Component `i` of a vector that is no view. -/
def elem {T : Type} (l : List T) (i : Nat) : Res T :=
  match l[i]? with
  | some x => .ok x
  | none => .error .ub

/-- What a program does with the vector `v`. `p` and `q` are views of it. -/
inductive Op (T : Type) where
  /-- `v.p()[i] = x` -/
  | set (p : List Name) (i : Nat) (x : T)
  /-- `v.p() = Vect{l}` -/
  | store (p : List Name) (l : List T)
  /-- `v.p() = v.q()` -/
  | assign (p q : List Name)
  /-- `v.p() op= v.q()` -/
  | comb (f : T → T → T) (p q : List Name)
  /-- `v.p() op= v.q()[j]` -/
  | scalar (f : T → T → T) (p q : List Name) (j : Nat)
  /-- `-v.p()`, which changes the vector (`rpp/vmath.h:245-253`) -/
  | neg (g : T → T) (p : List Name)

/-- One operation. Assigning is the operator the compiler makes (`rpp/vmath.h:73, 75`), which copies the union byte by byte: undefined if the
two overlap and are not the same. The compound operators take their operand by value (`rpp/vmath.h:84-140`). The other parameter types
and names that do not exist do not compile; they are ignored. -/
def step {T : Type} (m : List T) : Op T → Res (List T)
  | .set p i x =>
    match (Ref.mk 0 m.length).path p with
    | some r => r.put m i x
    | none => .ok m
  | .store p l =>
    match (Ref.mk 0 m.length).path p with
    | some r => if l.length = r.len then r.loop (fun i _ => elem l i) m r.len else .ok m
    | none => .ok m
  | .assign p q =>
    match (Ref.mk 0 m.length).path p, (Ref.mk 0 m.length).path q with
    | some r, some s =>
      if r.len = s.len then
        if r.clash s then .error .ub
        else r.loop (fun i _ => s.at m i) m r.len
      else .ok m
    | _, _ => .ok m
  | .comb f p q =>
    match (Ref.mk 0 m.length).path p, (Ref.mk 0 m.length).path q with
    | some r, some s =>
      if r.len = s.len then do
        let l ← s.copy m s.len
        r.loop (fun i x => do let y ← elem l i; return f x y) m r.len
      else .ok m
    | _, _ => .ok m
  | .scalar f p q j =>
    match (Ref.mk 0 m.length).path p, (Ref.mk 0 m.length).path q with
    | some r, some s => do
      let y ← s.at m j
      r.loop (fun _ x => .ok (f x y)) m r.len
    | _, _ => .ok m
  | .neg g p =>
    match (Ref.mk 0 m.length).path p with
    | some r => r.loop (fun _ x => .ok (g x)) m r.len
    | none => .ok m

/-- A program. -/
def run {T : Type} (m : List T) : List (Op T) → Res (List T)
  | [] => .ok m
  | o :: os => do
    let m ← step m o
    run m os

end Rpp.View
