import Verif.Spec.Nested

/-!
# Model: containers inside of containers, in memory

`Vec`, `Box`, `Opt` and `Pair` (`rpp/vec.h`, `rpp/box.h`, `rpp/opt.h`, `rpp/pair.h`) over types built from each other. The constructors,
destructors and assignments work on memory, those of a template calling those of its argument.

An address is a block and the way from the beginning of the block to the object: the number of an element, then the way to the payload of an
`Opt` or to one of the two parts of a `Pair`, which are stored inside of the object. What is stored at the address of an object itself is
its own fields: three for a vector, the pointer of a box, the flag of an `Opt`, nothing for a pair. Blocks are the allocations, and also the
variables of the program, which have a block each.

Simplifications: allocations succeed and capacities do not overflow (C13); block numbers are not used again, so that a stale pointer is
always noticed; destructors of numbers, which `Must_Destruct` leaves out, do nothing, and `memcpy` of numbers is one assignment each;
temporaries that are moved from at once (`Opt{value_->clone()}`, `Box{data_->clone()}`) are constructed in place.
-/

namespace Rpp.Nested
open Rpp

/-- From an object to one inside of the same block. -/
inductive Step where
  | elem (i : Nat)
  | val
  | fst
  | snd
  deriving DecidableEq, Repr

/-- An address. -/
structure Loc where
  blk : Nat
  path : List Step
  deriving DecidableEq, Repr

/-- The address of a part stored inside. -/
def Loc.sub (l : Loc) (s : Step) : Loc := ⟨l.blk, l.path ++ [s]⟩

/-- The fields of an object: `Vec` (`rpp/vec.h:265-267`), `Box` (`rpp/box.h:107`), `Opt` (`rpp/opt.h:128-129`). -/
inductive Flat where
  | num (n : Nat)
  | vec (data : Option Nat) (length capacity : Nat)
  | box (data : Option Nat)
  | opt (ok : Bool)
  deriving DecidableEq, Repr

/-- The memory: fields by address, the blocks in use, the next block. -/
structure Mem where
  obj : Loc → Option Flat
  live : List Nat
  next : Nat

/-- Read the fields of an object. -/
def load (l : Loc) (m : Mem) : Res Flat :=
  if l.blk ∈ m.live then
    match m.obj l with
    | some f => .ok f
    | none => .error .ub
  else .error .ub

/-- Write the fields of an object. -/
def store (l : Loc) (f : Flat) (m : Mem) : Res Mem :=
  if l.blk ∈ m.live then .ok { m with obj := fun k => if k = l then some f else m.obj k } else .error .ub

/-- `A::alloc` of something (`rpp/alloc1.h:91-108`). -/
def alloc (m : Mem) : Nat × Mem := (m.next, { m with live := m.next :: m.live, next := m.next + 1 })

/-- `A::free`, which ignores null. -/
def free (d : Option Nat) (m : Mem) : Res Mem :=
  match d with
  | none => .ok m
  | some b => if b ∈ m.live then .ok { m with live := m.live.erase b } else .error .ub

/-- `for(u64 i = …; i < length; i++)`: `n` rounds beginning with `i`. -/
def loop (f : Nat → Mem → Res Mem) : Nat → Nat → Mem → Res Mem
  | 0, _, m => .ok m
  | n + 1, i, m => do
    let m ← f i m
    loop f n (i + 1) m

/-- The address of element `i` behind a pointer. -/
def elemAt (d : Option Nat) (i : Nat) : Res Loc :=
  match d with
  | some b => .ok ⟨b, [.elem i]⟩
  | none => .error .ub

/-- Destructors: `~Vec` (`rpp/vec.h:66-76`), `~Box` (`rpp/box.h:49-54`), `~Opt` (`rpp/opt.h:32-34, 81-86`), `~Pair`
(`rpp/pair.h:37`: the parts in reverse order). They leave null pointers and zero lengths. -/
def destroy : Ty → Loc → Mem → Res Mem
  | .num, _, m => .ok m
  | .vec t, l, m => do
    match ← load l m with
    | .vec d len _ => do
      let m ← loop (fun i m => do let e ← elemAt d i; destroy t e m) len 0 m
      let m ← free d m
      store l (.vec none 0 0) m
    | _ => .error .ub
  | .box t, l, m => do
    match ← load l m with
    | .box none => .ok m
    | .box (some b) => do
      let m ← destroy t ⟨b, []⟩ m
      let m ← free (some b) m
      store l (.box none) m
    | _ => .error .ub
  | .opt t, l, m => do
    match ← load l m with
    | .opt ok => do
      let m ← (if ok then destroy t (l.sub .val) m else .ok m)
      store l (.opt false) m
    | _ => .error .ub
  | .pair a b, l, m => do
    let m ← destroy b (l.sub .snd) m
    destroy a (l.sub .fst) m

/-- Move constructors: `Vec` (`rpp/vec.h:47-54`), `Box` (`rpp/box.h:38-41`), `Opt` (`rpp/opt.h:43-50`), `Pair` (`rpp/pair.h:46`). -/
def moveCtor : Ty → Loc → Loc → Mem → Res Mem
  | .num, dst, src, m => do
    let f ← load src m
    store dst f m
  | .vec _, dst, src, m => do
    let f ← load src m
    let m ← store dst f m
    store src (.vec none 0 0) m
  | .box _, dst, src, m => do
    let f ← load src m
    let m ← store dst f m
    store src (.box none) m
  | .opt t, dst, src, m => do
    match ← load src m with
    | .opt true => do
      let m ← moveCtor t (dst.sub .val) (src.sub .val) m
      store dst (.opt true) m
    | .opt false => store dst (.opt false) m
    | _ => .error .ub
  | .pair a b, dst, src, m => do
    let m ← moveCtor a (dst.sub .fst) (src.sub .fst) m
    moveCtor b (dst.sub .snd) (src.sub .snd) m

/-- `clone`, constructing at `dst`: `Vec` (`rpp/vec.h:78-97`), `Box` (`rpp/box.h:65-76`), `Opt` (`rpp/opt.h:88-98`), `Pair`
(`rpp/pair.h:49-62`). -/
def cloneTo : Ty → Loc → Loc → Mem → Res Mem
  | .num, dst, src, m => do
    let f ← load src m
    store dst f m
  | .vec t, dst, src, m => do
    match ← load src m with
    | .vec d len cap =>
      if cap = 0 then
        loop (fun i m => do let e ← elemAt none i; let e' ← elemAt d i; cloneTo t e e' m) len 0 m >>= store dst (.vec none len cap)
      else do
        let (b, m) := alloc m
        let m ← loop (fun i m => do let e' ← elemAt d i; cloneTo t ⟨b, [.elem i]⟩ e' m) len 0 m
        store dst (.vec (some b) len cap) m
    | _ => .error .ub
  | .box t, dst, src, m => do
    match ← load src m with
    | .box none => store dst (.box none) m
    | .box (some s) => do
      let (b, m) := alloc m
      let m ← cloneTo t ⟨b, []⟩ ⟨s, []⟩ m
      store dst (.box (some b)) m
    | _ => .error .ub
  | .opt t, dst, src, m => do
    match ← load src m with
    | .opt true => do
      let m ← cloneTo t (dst.sub .val) (src.sub .val) m
      store dst (.opt true) m
    | .opt false => store dst (.opt false) m
    | _ => .error .ub
  | .pair a b, dst, src, m => do
    let m ← cloneTo a (dst.sub .fst) (src.sub .fst) m
    cloneTo b (dst.sub .snd) (src.sub .snd) m

/-- Move assignment: `Vec` (`rpp/vec.h:55-64`), `Box` (`rpp/box.h:42-47`) and `Opt` (`rpp/opt.h:52-61`) destroy what they hold and then
take over as the move constructor does; `Pair` (`rpp/pair.h:47`) assigns both parts. -/
def assign : Ty → Loc → Loc → Mem → Res Mem
  | .num, dst, src, m => moveCtor .num dst src m
  | .pair a b, dst, src, m => do
    let m ← assign a (dst.sub .fst) (src.sub .fst) m
    assign b (dst.sub .snd) (src.sub .snd) m
  | t, dst, src, m => do
    let m ← destroy t dst m
    moveCtor t dst src m

/-- Default constructors; `u64{}` is zero. -/
def defCtor : Ty → Loc → Mem → Res Mem
  | .num, l, m => store l (.num 0) m
  | .vec _, l, m => store l (.vec none 0 0) m
  | .box _, l, m => store l (.box none) m
  | .opt _, l, m => store l (.opt false) m
  | .pair a b, l, m => do
    let m ← defCtor a (l.sub .fst) m
    defCtor b (l.sub .snd) m

/-- `Vec::reserve(grown)` (`rpp/vec.h:115-136`) as called by `grow` (`rpp/vec.h:99-104`): the elements are moved, and what is left of them
is not destroyed. -/
def grow (t : Ty) (l : Loc) (d : Option Nat) (len cap : Nat) (m : Mem) : Res (Nat × Nat × Mem) := do
  let grown := if cap = 0 then 8 else 2 * cap
  let (b, m) := alloc m
  let m ← (match d with
    | some o => loop (fun i m => moveCtor t ⟨b, [.elem i]⟩ ⟨o, [.elem i]⟩ m) len 0 m
    | none => .ok m)
  let m ← free d m
  let m ← store l (.vec (some b) len grown) m
  return (b, grown, m)

/-- `Vec::push(T&&)` (`rpp/vec.h:174-181`). -/
def push (t : Ty) (l src : Loc) (m : Mem) : Res Mem := do
  match ← load l m with
  | .vec d len cap =>
    let (d, cap, m) ← (if len = cap then do let (b, cap, m) ← grow t l d len cap m; pure (some b, cap, m) else .ok (d, cap, m))
    let e ← elemAt d len
    let m ← moveCtor t e src m
    store l (.vec d (len + 1) cap) m
  | _ => .error .ub

/-- `Vec::pop` (`rpp/vec.h:192-198`). -/
def pop (t : Ty) (l : Loc) (m : Mem) : Res Mem := do
  match ← load l m with
  | .vec d len cap =>
    if len = 0 then .error .die
    else do
      let m ← store l (.vec d (len - 1) cap) m
      let e ← elemAt d (len - 1)
      destroy t e m
  | _ => .error .ub

/-- `Vec::clear` (`rpp/vec.h:106-113`). -/
def clear (t : Ty) (l : Loc) (m : Mem) : Res Mem := do
  match ← load l m with
  | .vec d len cap => do
    let m ← loop (fun i m => do let e ← elemAt d i; destroy t e m) len 0 m
    store l (.vec d 0 cap) m
  | _ => .error .ub

/-- `Box::emplace(T&&)` (`rpp/box.h:78-82`). -/
def emplace (t : Ty) (l src : Loc) (m : Mem) : Res Mem := do
  let m ← destroy (.box t) l m
  let (b, m) := alloc m
  let m ← moveCtor t ⟨b, []⟩ src m
  store l (.box (some b)) m

/-- `Opt::operator=(T&&)` (`rpp/opt.h:63-70`). -/
def wrap (t : Ty) (l src : Loc) (m : Mem) : Res Mem := do
  let m ← destroy (.opt t) l m
  let m ← moveCtor t (l.sub .val) src m
  store l (.opt true) m

/-- The four ways to move an object. -/
def give : Kind → Ty → Loc → Loc → Mem → Res Mem
  | .push => push
  | .emplace => emplace
  | .wrap => wrap
  | .assign => assign

/-- The address of a part; indexing (`rpp/vec.h:218-221`), `operator*` of a box (`rpp/box.h:93-96`) and of an `Opt` (`rpp/opt.h:105-108`)
are checked. -/
def locate (m : Mem) : Loc → List Acc → Res Loc
  | l, [] => .ok l
  | l, .idx i :: p => do
    match ← load l m with
    | .vec d len _ => if i < len then do let e ← elemAt d i; locate m e p else .error .die
    | _ => .error .ub
  | l, .deref :: p => do
    match ← load l m with
    | .box none => .error .die
    | .box (some b) => locate m ⟨b, []⟩ p
    | _ => .error .ub
  | l, .val :: p => do
    match ← load l m with
    | .opt true => locate m (l.sub .val) p
    | .opt false => .error .die
    | _ => .error .ub
  | l, .fst :: p => locate m (l.sub .fst) p
  | l, .snd :: p => locate m (l.sub .snd) p

/-- A program's variables (type and block; `none` once out of scope) and the memory. -/
structure St where
  vars : List (Option (Ty × Nat))
  mem : Mem

/-- The beginning. -/
def St.init : St := ⟨[], ⟨fun _ => none, [], 0⟩⟩

/-- The address of a place. -/
def St.place (s : St) (p : Place) : Res Loc :=
  match s.vars[p.var]? with
  | some (some (_, b)) => locate s.mem ⟨b, []⟩ p.path
  | _ => .error .ub

/-- One operation. Operations that do not type-check are skipped. -/
def step (s : St) : Op → Res St
  | .decl t => do
    let (b, m) := alloc s.mem
    let m ← defCtor t ⟨b, []⟩ m
    return ⟨s.vars ++ [some (t, b)], m⟩
  | .num p n =>
    if typeOf s.vars p = some .num then do
      let l ← s.place p
      let m ← store l (.num n) s.mem
      return ⟨s.vars, m⟩
    else .ok s
  | .give k p q =>
    match typeOf s.vars q with
    | some t =>
      if typeOf s.vars p = some (k.target t) then do
        let l ← s.place p
        let src ← s.place q
        let m ← give k t l src s.mem
        return ⟨s.vars, m⟩
      else .ok s
    | none => .ok s
  | .clone p q =>
    match typeOf s.vars q with
    | some t =>
      if typeOf s.vars p = some t then do
        let l ← s.place p
        let src ← s.place q
        let (tmp, m) := alloc s.mem
        let m ← cloneTo t ⟨tmp, []⟩ src m
        let m ← assign t l ⟨tmp, []⟩ m
        let m ← destroy t ⟨tmp, []⟩ m
        let m ← free (some tmp) m
        return ⟨s.vars, m⟩
      else .ok s
    | none => .ok s
  | .pop p =>
    match typeOf s.vars p with
    | some (.vec t) => do
      let l ← s.place p
      let m ← pop t l s.mem
      return ⟨s.vars, m⟩
    | _ => .ok s
  | .clear p =>
    match typeOf s.vars p with
    | some (.vec t) => do
      let l ← s.place p
      let m ← clear t l s.mem
      return ⟨s.vars, m⟩
    | _ => .ok s
  | .leave x =>
    match s.vars[x]? with
    | some (some (t, b)) => do
      let m ← destroy t ⟨b, []⟩ s.mem
      let m ← free (some b) m
      return ⟨s.vars.set x none, m⟩
    | _ => .ok s

/-- A program. -/
def run (s : St) : List Op → Res St
  | [] => .ok s
  | op :: ops => do
    let s ← step s op
    run s ops

/-- The value of an object, as its users see it. -/
def value (m : Mem) : Ty → Loc → Option Tree
  | .num, l => match m.obj l with
    | some (.num n) => some (.num n)
    | _ => none
  | .vec t, l => match m.obj l with
    | some (.vec _ 0 _) => some (.vec [])
    | some (.vec (some b) len _) => ((List.range len).mapM fun i => value m t ⟨b, [.elem i]⟩).map .vec
    | _ => none
  | .box t, l => match m.obj l with
    | some (.box none) => some (.box none)
    | some (.box (some b)) => (value m t ⟨b, []⟩).map fun T => .box (some T)
    | _ => none
  | .opt t, l => match m.obj l with
    | some (.opt false) => some (.opt none)
    | some (.opt true) => (value m t (l.sub .val)).map fun T => .opt (some T)
    | _ => none
  | .pair a b, l => do
    let x ← value m a (l.sub .fst)
    let y ← value m b (l.sub .snd)
    return .pair x y

/-- The blocks that an object owns, directly or through what it contains. -/
def owned (m : Mem) : Ty → Loc → List Nat
  | .num, _ => []
  | .vec t, l => match m.obj l with
    | some (.vec (some b) len _) => b :: (List.range len).flatMap fun i => owned m t ⟨b, [.elem i]⟩
    | _ => []
  | .box t, l => match m.obj l with
    | some (.box (some b)) => b :: owned m t ⟨b, []⟩
    | _ => []
  | .opt t, l => match m.obj l with
    | some (.opt true) => owned m t (l.sub .val)
    | _ => []
  | .pair a b, l => owned m a (l.sub .fst) ++ owned m b (l.sub .snd)

/-- The block of a variable and those that it owns. -/
def varBlocks (m : Mem) : Option (Ty × Nat) → List Nat
  | some (t, b) => b :: owned m t ⟨b, []⟩
  | none => []

end Rpp.Nested
