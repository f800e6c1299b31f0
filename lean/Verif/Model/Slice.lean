import Verif.Model.Word
import Verif.Spec.Slice

/-!
# Model: `Slice` and `Ref`

`rpp/slice.h:22-139`, `rpp/ref0.h:10-45`, `rpp/ref1.h:10-32`. A slice points into an array that outlives it; addresses are places in that
array, and an address outside of it stays outside (pointers are not reduced modulo the size of the address space).
-/

namespace Rpp.Slc
open Spec.Win

/-- `data_`, `length_` (`rpp/slice.h:138-139`). -/
structure Slice where
  off : Nat
  len : Nat
  deriving DecidableEq, Repr

variable {α : Type}

/-- `data_[i]`: no check. -/
def raw (mem : List α) (s : Slice) (i : Nat) : Res α :=
  match mem[s.off + i]? with
  | some x => .ok x
  | none => .error .ub

/-- `operator[]` (`rpp/slice.h:79-86`). -/
def at' (mem : List α) (s : Slice) (i : Nat) : Res α := if i < s.len then raw mem s i else .error .die

/-- Assignment through `operator[]`. -/
def set (mem : List α) (s : Slice) (i : Nat) (x : α) : Res (List α) :=
  if i < s.len then (if s.off + i < mem.length then .ok (mem.set (s.off + i) x) else .error .ub) else .error .die

/-- `front`, `back` (`rpp/slice.h:70-77`). -/
def front (mem : List α) (s : Slice) : Res α := if 0 < s.len then raw mem s 0 else .error .die
def back (mem : List α) (s : Slice) : Res α := if 0 < s.len then raw mem s (wsub s.len 1) else .error .die

/-- `sub` (`rpp/slice.h:116-119`): the sum wraps around. -/
def sub (s : Slice) (start n : Nat) : Res Slice := if wadd start n ≤ s.len then .ok ⟨s.off + start, n⟩ else .error .die

/-- `for(auto& x : slice)` with `begin`, `end` (`rpp/slice.h:95-107`): `n` elements left from address `p` on. -/
def iter (mem : List α) : Nat → Nat → Res (List α)
  | 0, _ => .ok []
  | n + 1, p => do
    let x ← match mem[p]? with
      | some x => (.ok x : Res α)
      | none => .error .ub
    let r ← iter mem n (p + 1)
    return x :: r

/-- The array, the slices of the program, and what it has read. -/
structure St (α : Type) where
  mem : List α
  vars : List Slice
  out : List α
  deriving DecidableEq

/-- One operation of a program (the members above; copies are new variables). -/
def step (s : St α) : Op α → Res (St α)
  | .sub v start n => match s.vars[v]? with
    | none => .error .ub
    | some w => do let r ← sub w start n; .ok { s with vars := s.vars ++ [r] }
  | .read v i => match s.vars[v]? with
    | none => .error .ub
    | some w => do let x ← at' s.mem w i; .ok { s with out := s.out ++ [x] }
  | .write v i x => match s.vars[v]? with
    | none => .error .ub
    | some w => do let m ← set s.mem w i x; .ok { s with mem := m }
  | .front v => match s.vars[v]? with
    | none => .error .ub
    | some w => do let x ← front s.mem w; .ok { s with out := s.out ++ [x] }
  | .back v => match s.vars[v]? with
    | none => .error .ub
    | some w => do let x ← back s.mem w; .ok { s with out := s.out ++ [x] }
  | .all v => match s.vars[v]? with
    | none => .error .ub
    | some w => do let l ← iter s.mem w.len w.off; .ok { s with out := s.out ++ l }

/-- A program. -/
def run (s : St α) : List (Op α) → Res (St α)
  | [] => .ok s
  | o :: os => do let s ← step s o; run s os

/-- A program starts with a slice of the whole array. -/
def start (mem : List α) : St α := ⟨mem, [⟨0, mem.length⟩], []⟩

/-! ## `Ref` -/

/-- Variables of type `Ref` (`value_`, null or the address of an object), and the addresses dereferenced. Copies are memberwise
(`rpp/ref0.h:20-21`); moving clears the source last (`rpp/ref0.h:23-30`); dereferencing asserts (`rpp/ref1.h:10-32`). -/
def rstep (s : List (Option Nat) × List Nat) : ROp → Res (List (Option Nat) × List Nat)
  | .new a => .ok (s.1 ++ [some a], s.2)
  | .null => .ok (s.1 ++ [none], s.2)
  | .copy y => match s.1[y]? with
    | none => .error .ub
    | some a => .ok (s.1 ++ [a], s.2)
  | .assign x y => match s.1[x]?, s.1[y]? with
    | some _, some a => .ok (s.1.set x a, s.2)
    | _, _ => .error .ub
  | .moveNew y => match s.1[y]? with
    | none => .error .ub
    | some a => .ok ((s.1 ++ [a]).set y none, s.2)
  | .moveTo x y => match s.1[x]?, s.1[y]? with
    | some _, some a => .ok ((s.1.set x a).set y none, s.2)
    | _, _ => .error .ub
  | .use x => match s.1[x]? with
    | none => .error .ub
    | some none => .error .die
    | some (some a) => .ok (s.1, s.2 ++ [a])

/-- A program. -/
def rrun (s : List (Option Nat) × List Nat) : List ROp → Res (List (Option Nat) × List Nat)
  | [] => .ok s
  | o :: os => do let s ← rstep s o; rrun s os

end Rpp.Slc
