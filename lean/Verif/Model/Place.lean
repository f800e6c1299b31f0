import Verif.Model.Mem

/-!
# Model: where objects are placed

A type is its size and its alignment. `malloc` answers with multiples of 16 (pointers have eight bytes, `rpp/base.h:105`); the members of
a class follow each other, each at the next multiple of its alignment. Simplified: addresses are unbounded numbers.
-/

namespace Rpp.Place

/-- `sizeof` and `alignof`. -/
structure Ty where
  size : Nat
  al : Nat
deriving DecidableEq

/-- The next multiple of `a`. -/
def up (n a : Nat) : Nat := (n + a - 1) / a * a

/-- The element `i` of an array at `base`: the arrays of `Vec` (`rpp/vec.h:21-24, 120, 179`), `Heap` (`rpp/heap.h:22-26, 97, 142`), `Queue`
(`rpp/queue.h:20-25, 104, 149`) and `Map` (`rpp/map.h:80-87, 155-176`) come from `Allocator::alloc`; a `Box` has one element
(`rpp/alloc0.h:33-40`). -/
def elem (base : Nat) (t : Ty) (i : Nat) : Nat := base + i * t.size

/-- `Storage<T>` (`rpp/storage.h:84`): `alignas(alignof(T)) u8 value_[sizeof(T)]`. -/
def storage (t : Ty) : Ty := ⟨up t.size t.al, t.al⟩

/-- A class with two members; also where the second one is. -/
def two (a b : Ty) : Nat × Ty :=
  (up a.size b.al, ⟨up (up a.size b.al + b.size) (max a.al b.al), max a.al b.al⟩)

/-- `Rc_Data` and `Arc_Data` (`rpp/rc.h:10-26`): a counter of eight bytes, then the storage. -/
def rcData (t : Ty) : Nat × Ty := two ⟨8, 8⟩ (storage t)

/-- `Variant<Ts...>` (`rpp/variant.h:123-124, 143-147`): the offset of the index and the type. The bytes for the alternatives come
first. -/
def variant (ts : List Ty) : Nat × Ty :=
  two ⟨(ts.map (·.size)).foldl max 0, (ts.map (·.al)).foldl max 0⟩ ⟨1, 1⟩

/-- `Function<Words, ...>` (`rpp/function.h:54-66, 102-103`): `none` where a static assertion fails; otherwise the offset of the table and the
type. The closure is at the start. -/
def function (words : Nat) (f : Ty) : Option (Nat × Ty) :=
  if f.al ≤ 16 ∧ f.size ≤ words * 8 then some (two ⟨words * 8, 16⟩ ⟨8, 8⟩) else none

/-- `alignas(a)`: only powers of two compile. -/
def alignas (a : Nat) : Option Nat := if a ≠ 0 ∧ a = 2 ^ a.log2 then some a else none

/-- The block of `detail::Pool<N>` (`rpp/alloc1.h:59-61`): `alignas(Math::min<u64>(N, 16)) u8 data[N]`. -/
def block (n : Nat) : Option Ty := (alignas (min n 16)).map fun a => ⟨up n a, a⟩

/-- `Free_List<T>::Free_Node` (`rpp/alloc0.h:177-181`): a union with a pointer. -/
def freeNode (t : Ty) : Ty := ⟨up (max t.size 8) (max t.al 8), max t.al 8⟩

/-- What `Mpool::make` asks `malloc` for, for an object of a type (`rpp/alloc1.h:30-41, 79-83`, `rpp/alloc0.h:161-169`); `none` where it
does not compile. The object is at the start. -/
def mpool (t : Ty) : Option Nat := (block t.size).map fun b => (freeNode b).size

end Rpp.Place
