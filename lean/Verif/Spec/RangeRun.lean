import Verif.Model.Range
import Verif.Spec.Range

/-!
# Programs that use a range allocator
-/

namespace Rpp.RA
open Rpp Rpp.Spec

/-- What a program can do with a range allocator of `cap` positions: `Run B bias cap s g` says that the
allocator can be in state `s` with the ranges `g` in use. Requests are such that `size + align` is at most
`2 ^ 64`; ranges are freed at most once. -/
inductive Run (B bias cap : Nat) : RA → List Grant → Prop
  | start {s : RA} : make_heap B bias cap = .ok s → Run B bias cap s []
  | alloc {s s' : RA} {g : List Grant} {size align b : Nat} {blk : RBlock} : Run B bias cap s g →
      size + align ≤ 2 ^ 64 →
      allocate B bias s size align = .ok (s', some b) → s'.mem b = some blk →
      Run B bias cap s' (⟨b, blk.offset, blk.length, wsub blk.offset blk.start, size, align⟩ :: g)
  | fail {s s' : RA} {g : List Grant} {size align : Nat} : Run B bias cap s g →
      size + align ≤ 2 ^ 64 →
      allocate B bias s size align = .ok (s', none) → Run B bias cap s' g
  | free {s s' : RA} {g : List Grant} {r : Grant} : Run B bias cap s g → r ∈ g →
      free B bias s r.handle = .ok s' → Run B bias cap s' (g.erase r)

/-- What has been done with the allocator so far: how many ranges were handed out and released, how many positions
they had in total with their padding, and how many at most were in use at a time. -/
structure Tally where
  allocs : Nat := 0
  frees : Nat := 0
  allocSize : Nat := 0
  freeSize : Nat := 0
  peak : Nat := 0

/-- The positions a range takes. -/
def _root_.Rpp.Spec.Grant.taken (r : Grant) : Nat := r.pad + r.len

/-- The positions in use. -/
def inUse (g : List Grant) : Nat := (g.map Grant.taken).sum

/-- `Run`, with a tally of what was done. -/
inductive Hist (B bias cap : Nat) : RA → List Grant → Tally → Prop
  | start {s : RA} : make_heap B bias cap = .ok s → Hist B bias cap s [] {}
  | alloc {s s' : RA} {g : List Grant} {t : Tally} {size align b : Nat} {blk : RBlock} {r : Grant} : Hist B bias cap s g t →
      size + align ≤ 2 ^ 64 →
      allocate B bias s size align = .ok (s', some b) → s'.mem b = some blk →
      r = ⟨b, blk.offset, blk.length, wsub blk.offset blk.start, size, align⟩ →
      Hist B bias cap s' (r :: g) { t with allocs := t.allocs + 1, allocSize := t.allocSize + r.taken, peak := max t.peak (inUse (r :: g)) }
  | fail {s s' : RA} {g : List Grant} {t : Tally} {size align : Nat} : Hist B bias cap s g t →
      size + align ≤ 2 ^ 64 →
      allocate B bias s size align = .ok (s', none) → Hist B bias cap s' g t
  | free {s s' : RA} {g : List Grant} {t : Tally} {r : Grant} : Hist B bias cap s g t → r ∈ g →
      free B bias s r.handle = .ok s' →
      Hist B bias cap s' (g.erase r) { t with frees := t.frees + 1, freeSize := t.freeSize + r.taken }

end Rpp.RA
