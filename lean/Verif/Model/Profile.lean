import Verif.Model.Mem

/-!
# Model: the frame profiler

`rpp/impl/profile.cpp` and `rpp/profile.h`: one frame of one thread. Every clock reading is an input of
the model, so the clock may return any values. Locations are values of an arbitrary type `L` with equality
(`Log::Location`, `rpp/log.h`). `Vec` is a list here (its own code is modelled in `Verif.Model.Vec`). The
recording of allocations and the locks around the frames are left out.
-/

namespace Rpp.Prof

/-- `u64` clock readings and durations (`rpp/profile.h:30`); arithmetic wraps. -/
abbrev W := BitVec 64

/-- `Timing_Node` (`rpp/profile.h:63-79`). -/
structure Node (L : Type) where
  loc : L
  begin : W
  fin : W := 0
  self : W := 0
  heir : W := 0
  calls : W
  parent : Nat
  children : List Nat := []
deriving DecidableEq

/-- `Timing_Node::make` (`rpp/profile.h:71-78`). -/
def Node.make {L : Type} (loc : L) (parent : Nat) (t : W) : Node L :=
  { loc, parent, begin := t, calls := 1 }

/-- `Frame_Profile` (`rpp/profile.h:124-134`). -/
structure Frame (L : Type) where
  cur : Nat := 0
  nodes : List (Node L) := []
deriving DecidableEq

variable {L : Type} [DecidableEq L]

/-- `Vec::operator[]` (`rpp/vec.h`): an index out of range ends the program. -/
def at' (ns : List (Node L)) (i : Nat) : Res (Node L) :=
  match ns[i]? with
  | some n => .ok n
  | none => .error .die

/-- `Frame_Profile::begin` (`rpp/impl/profile.cpp:38-42`); `frame` is the location `"Frame"`. -/
def begin (frame : L) (t : W) (f : Frame L) : Res (Frame L) :=
  if f.cur = 0 ∧ f.nodes = [] then .ok { f with nodes := [Node.make frame 0 t] } else .error .die

/-- The loop of `enter` over the children of the current node (`rpp/impl/profile.cpp:123-129`): the last
child with this location, if any. -/
def search (ns : List (Node L)) (loc : L) : List Nat → Option Nat → Res (Option Nat)
  | [], r => .ok r
  | c :: cs, r =>
    match at' ns c with
    | .error e => .error e
    | .ok child => search ns loc cs (if child.loc = loc then some c else r)

/-- `Frame_Profile::enter` (`rpp/impl/profile.cpp:118-140`). When the location was entered before under
the current node, `node` still refers to the current node and not to the child that becomes current:
lines 137-138 restart the clock and count the call there. -/
def enter (loc : L) (t : W) (f : Frame L) : Res (Frame L) :=
  match at' f.nodes f.cur with
  | .error e => .error e
  | .ok node =>
    match search f.nodes loc node.children none with
    | .error e => .error e
    | .ok none =>
      let i := f.nodes.length
      .ok { cur := i
            nodes := f.nodes.set f.cur { node with children := node.children ++ [i] } ++ [Node.make loc f.cur t] }
    | .ok (some i) =>
      .ok { cur := i, nodes := f.nodes.set f.cur { node with begin := t, calls := node.calls + 1 } }

/-- `Frame_Profile::exit` (`rpp/impl/profile.cpp:150-158`). -/
def exit (t : W) (f : Frame L) : Res (Frame L) :=
  match at' f.nodes f.cur with
  | .error e => .error e
  | .ok node =>
    .ok { cur := node.parent
          nodes := f.nodes.set f.cur { node with fin := t, heir := node.heir + (t - node.begin) } }

/-- The loop over the children in `compute_self_times` (`rpp/impl/profile.cpp:55-58`); `rec` is the recursive
call. -/
def selfLoop (rec : Nat → List (Node L) → Res (List (Node L))) :
    List Nat → List (Node L) → W → Res (List (Node L) × W)
  | [], ns, sum => .ok (ns, sum)
  | c :: cs, ns, sum =>
    match rec c ns with
    | .error e => .error e
    | .ok ns' =>
      match at' ns' c with
      | .error e => .error e
      | .ok n => selfLoop rec cs ns' (sum + n.heir)

/-- `Frame_Profile::compute_self_times` (`rpp/impl/profile.cpp:52-60`); the first argument bounds the depth
of the recursion. -/
def selfTimes : Nat → Nat → List (Node L) → Res (List (Node L))
  | 0, _, _ => .error .hang
  | d + 1, i, ns =>
    match at' ns i with
    | .error e => .error e
    | .ok node =>
      match selfLoop (selfTimes d) node.children ns 0 with
      | .error e => .error e
      | .ok (ns', sum) =>
        match at' ns' i with
        | .error e => .error e
        | .ok n => .ok (ns'.set i { n with self := n.heir - sum })

/-- `Frame_Profile::end` (`rpp/impl/profile.cpp:44-50`). -/
def finish (t : W) (f : Frame L) : Res (Frame L) :=
  if f.cur = 0 then
    match at' f.nodes 0 with
    | .error e => .error e
    | .ok root =>
      match selfTimes (f.nodes.length + 1) 0 (f.nodes.set 0 { root with fin := t, heir := t - root.begin }) with
      | .error e => .error e
      | .ok ns => .ok { f with nodes := ns }
  else .error .die

/-- What a thread does during a frame, with the clock reading it gets. -/
inductive Ev (L : Type) where
  | enter (loc : L) (t : W)
  | exit (t : W)
deriving DecidableEq

/-- One event. -/
def step (f : Frame L) : Ev L → Res (Frame L)
  | .enter loc t => enter loc t f
  | .exit t => exit t f

/-- All events in order. -/
def steps : Frame L → List (Ev L) → Res (Frame L)
  | f, [] => .ok f
  | f, e :: r =>
    match step f e with
    | .error x => .error x
    | .ok f' => steps f' r

/-- A whole frame, from `begin` to `end`. -/
def frame (root : L) (t₀ : W) (es : List (Ev L)) (t₁ : W) : Res (Frame L) :=
  match begin root t₀ {} with
  | .error e => .error e
  | .ok f =>
    match steps f es with
    | .error e => .error e
    | .ok f' => finish t₁ f'

end Rpp.Prof
