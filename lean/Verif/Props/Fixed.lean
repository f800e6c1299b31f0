import Verif.Proof.Fixed

/-!
# Theorems about tuples, pairs, arrays and `swap` (C122–C124)

`Fresh s s' r` says that of all that was constructed between `s` and `s'`, the objects `r` remain and the rest, the
temporaries, was destroyed once, and that nothing older was destroyed.
-/

namespace Rpp.Props
open Rpp Rpp.Fixed Rpp.Spec

variable {V : Type}

/-! ## C122: tuples and pairs -/

/-- **C122.** A tuple made from arguments has as many members, and `get<i>` is the value of argument `i`. Arguments passed
as rvalues have been moved from, the others are as before. No temporaries are left. -/
theorem C122_make (args : List (Bool × Obj V)) (s : Ledger) (h : AllAlive s (args.map Prod.snd)) :
    ∃ t os s', Tup.make args s = .ok ((t, os), s') ∧ t.length = args.length ∧
      (∀ i, (t.get i).map Obj.val = args[i]?.map (fun a : Bool × Obj V => a.2.val)) ∧
      (∀ i : Nat, os[i]? = args[i]?.map (fun a : Bool × Obj V => if a.1 = true then ⟨a.2.id, none⟩ else a.2)) ∧
      Fresh s s' ((members t).map Obj.id) := by
  obtain ⟨⟨t, os⟩, s', h1, h2, h3, h4, _⟩ := Tup.make_ok args (s := s)
    (fun a ha => (h a.2 (List.mem_map_of_mem ha)).2)
  dsimp only at h2 h3 h4
  refine ⟨t, os, s', h1, ?_, fun i => ?_, fun i => ?_, h4⟩
  · have := congrArg List.length h2
    rw [Tup.length_eq]; simpa using this
  · rw [Tup.get_eq, ← List.getElem?_map, h2, List.getElem?_map]
  · rw [h3, List.getElem?_map]

/-- **C122.** `get<i>` compiles exactly for the places of the tuple, and a value written through it changes this place and
no other. -/
theorem C122_get_put (t : Tup V) (i : Nat) (v : V) : ((t.get i).isSome = true ↔ i < t.length) ∧ (t.put i v).length = t.length ∧
    ∀ k, (t.put i v).get k = (t.get k).map (fun o => if k = i then { o with val := some v } else o) := by
  refine ⟨?_, ?_, fun k => ?_⟩
  · rw [Tup.get_eq, Tup.length_eq]; simp
  · rw [Tup.length_eq, Tup.length_eq, Tup.put_eq]; simp
  · rw [Tup.get_eq, Tup.get_eq, Tup.put_eq, List.getElem?_modify]
    by_cases h : k = i
    · subst h; simp
    · simp only [if_neg h, if_neg (Ne.symm h)]; simp

/-- **C122.** `invoke` calls the function with all members, in their order. -/
theorem C122_invoke {R : Type} (t : Tup V) (f : List (Obj V) → R) :
    ∃ os, t.invoke f = some (f os) ∧ os.length = t.length ∧ ∀ i : Nat, os[i]? = t.get i :=
  ⟨members t, Tup.invoke_eq t f, (Tup.length_eq t).symm, fun i => (Tup.get_eq t i).symm⟩

/-- **C122.** A clone has the values of the original at all places, in objects of its own; the original is not touched, and
the temporaries of the nested `clone`s are destroyed once each. -/
theorem C122_clone (t : Tup V) (s : Ledger) (w : LedgerOk s) (h : AllAlive s (members t)) :
    ∃ t' s', t.clone s = .ok (t', s') ∧ t'.length = t.length ∧
      (∀ i, (t'.get i).map Obj.val = (t.get i).map Obj.val) ∧ Fresh s s' ((members t').map Obj.id) ∧
      AllAlive s' (members t' ++ members t) := by
  obtain ⟨t', s', h1, h2, h3⟩ := Tup.clone_ok t w h
  refine ⟨t', s', h1, ?_, fun i => ?_, h3, fun o ho => ?_⟩
  · have := congrArg List.length h2
    rw [Tup.length_eq, Tup.length_eq]; simpa using this
  · rw [Tup.get_eq, Tup.get_eq, ← List.getElem?_map, h2, List.getElem?_map]
  · rcases List.mem_append.1 ho with ho | ho
    · exact ⟨(h3.mem (List.mem_map_of_mem ho)).2, h3.alive w (List.mem_map_of_mem ho)⟩
    · exact h.later h3 o ho

/-- **C122.** The same for `Pair`, whichever of the members is cloned and whichever copied. -/
theorem C122_pair_clone (ca cb : Bool) (p : Obj V × Obj V) (s : Ledger) (w : LedgerOk s) (h : AllAlive s [p.1, p.2]) :
    ∃ q s', pairClone ca cb p s = .ok (q, s') ∧ q.1.val = p.1.val ∧ q.2.val = p.2.val ∧ Fresh s s' [q.1.id, q.2.id] := by
  obtain ⟨q, s', h1, h2, h3, h4⟩ := pairClone_ok ca cb p w h
  exact ⟨q, s', h1, h2, h3, h4⟩

/-- A tuple of three, the second by copy; its clone, with the temporaries of the nested clones destroyed. -/
example : (Tup.make [(true, ⟨0, some 7⟩), (false, ⟨1, some 8⟩), (true, ⟨2, some 9⟩)] ⟨3, []⟩).bind (fun r =>
    (r.1.1.clone r.2).map (fun q => (r.1.2.map Obj.val, members q.1, q.2))) =
    .ok ([none, some 8, none], [⟨12, some 7⟩, ⟨13, some 8⟩, ⟨14, some 9⟩], ⟨15, [8, 9, 7, 11, 10, 6]⟩) := by
  decide +kernel

example : pairClone true true (⟨0, some 7⟩, ⟨1, some 8⟩) ⟨2, []⟩ =
    .ok ((⟨4, some 7⟩, ⟨5, some 8⟩), ⟨6, [3, 2]⟩) := by decide +kernel

/-! ## C123: arrays -/

/-- **C123.** Indexing succeeds exactly within the array and otherwise ends the program. -/
theorem C123_index (a : List (Obj V)) (i : Nat) (s : Ledger) :
    (∀ h : i < a.length, Arr.at a i s = .ok (a[i], s)) ∧ (a.length ≤ i → Arr.at a i s = .error .die) := by
  constructor
  · intro h; unfold Arr.at; rw [List.getElem?_eq_getElem h]
  · intro h; unfold Arr.at; rw [List.getElem?_eq_none h]

/-- **C123.** A clone of an array has the same values in objects of its own, whether they are copied as bytes, cloned or
copied. The default objects it starts from are kept, the temporaries destroyed. -/
theorem C123_clone (plain : Bool) (d : V) (a : List (Obj V)) (s : Ledger) (w : LedgerOk s) (h : AllAlive s a) :
    ∃ r s', Arr.clone plain d a s = .ok (r, s') ∧ r.map Obj.val = a.map Obj.val ∧ Fresh s s' (r.map Obj.id) ∧
      AllAlive s' (r ++ a) := by
  obtain ⟨r, s', h1, h2, h3⟩ := Arr.clone_ok plain d a w h
  refine ⟨r, s', h1, h2, h3, fun o ho => ?_⟩
  rcases List.mem_append.1 ho with ho | ho
  · exact ⟨(h3.mem (List.mem_map_of_mem ho)).2, h3.alive w (List.mem_map_of_mem ho)⟩
  · exact h.later h3 o ho

example : Arr.clone false 0 [⟨0, some 7⟩, ⟨1, some 8⟩, ⟨2, none⟩] ⟨3, []⟩ =
    .ok ([⟨3, some 7⟩, ⟨4, some 8⟩, ⟨5, none⟩], ⟨9, [6, 7, 8]⟩) := by decide +kernel

/-! ## C124: `swap`

Full statement: `swap(a, b)` exchanges the values of `a` and `b` and changes nothing else, also if they are the same
object; shuffling with it permutes. -/

/-- **C124**, for objects that own something, and for different objects of plain data. Missing: plain data exchanged with
itself (`C124_self_plain`). -/
theorem C124_swap_partial (plain : Bool) (l : List (Obj V)) (i j : Nat) (hi : i < l.length) (hj : j < l.length)
    (hp : plain = true → i ≠ j) (s : Ledger) (w : LedgerOk s) (ha : AllAlive s l) :
    ∃ l' s', swap plain l i j s = .ok (l', s') ∧ l'.map Obj.id = l.map Obj.id ∧
      (∀ k, l'[k]?.map Obj.val = l[exchanged i j k]?.map Obj.val) ∧ Fresh s s' [] := by
  cases plain with
  | true => exact ⟨_, s, swap_plain hi hj (hp rfl) s, (swap_perm hi hj).2, fun k => (swap_places hi hj k).1, Fresh.refl s⟩
  | false =>
    obtain ⟨_, s', h1, rfl, h2⟩ := swap_owning hi hj w ha
    exact ⟨_, s', h1, (swap_perm hi hj).2, fun k => (swap_places hi hj k).1, h2⟩

/-- **C124 is false of the code** for plain data exchanged with itself: `memcpy` of an object onto itself is undefined. -/
theorem C124_self_plain (l : List (Obj V)) (i : Nat) (h : i < l.length) (s : Ledger) : swap true l i i s = .error .ub :=
  swap_self_plain l i h s

/-- **C124.** Shuffling a vector whose elements own something permutes the values among the objects, whatever the
generator draws; the temporaries are destroyed. -/
theorem C124_shuffle_owning (l : List (Obj V)) (h0 : l ≠ []) (hl : l.length < 2 ^ 64) (g : BitVec 64) (s : Ledger)
    (w : LedgerOk s) (ha : AllAlive s l) :
    ∃ l' g' s', shuffleLoop false (l.length - 1) 0 l g s = .ok ((l', g'), s') ∧ (l'.map Obj.val).Perm (l.map Obj.val) ∧
      l'.map Obj.id = l.map Obj.id ∧ Fresh s s' [] := by
  have := List.length_pos_iff.2 h0
  obtain ⟨⟨l', g'⟩, s', h1, h2, h3, h4⟩ := shuffle_owning (l.length - 1) 0 l g s (by omega) hl w ha
  exact ⟨l', g', s', h1, h2, h3, h4⟩

/-- **C124.** Shuffling plain data permutes it or is undefined; it is undefined when the generator draws the element's own
place. -/
theorem C124_shuffle_plain_partial (l : List (Obj V)) (h0 : l ≠ []) (hl : l.length < 2 ^ 64) (g : BitVec 64) (s : Ledger) :
    (shuffleLoop true (l.length - 1) 0 l g s = .error .ub ∨
      ∃ l' g', shuffleLoop true (l.length - 1) 0 l g s = .ok ((l', g'), s) ∧ (l'.map Obj.val).Perm (l.map Obj.val)) ∧
    (2 ≤ l.length → RNG.range Math.u64 0 l.length g = .ok (0, RNG.next g) →
      shuffleLoop true (l.length - 1) 0 l g s = .error .ub) := by
  have := List.length_pos_iff.2 h0
  constructor
  · rcases shuffle_plain (l.length - 1) 0 l g s (by omega) hl with h | ⟨⟨l', g'⟩, h1, h2, _⟩
    · exact .inl h
    · exact .inr ⟨l', g', h1, h2⟩
  · intro h2 e
    rw [show l.length - 1 = (l.length - 2) + 1 by omega]
    exact shuffle_plain_self (i := 0) (by omega) e

/-- Shuffling two numbers: with generator state 2 they are exchanged, with 3 it is undefined. -/
example : (shuffleLoop true 1 0 [⟨0, some 7⟩, ⟨1, some 8⟩] 2#64 ⟨2, []⟩).map (fun r => r.1.1.map Obj.val) = .ok [some 8, some 7] ∧
    shuffleLoop true 1 0 [⟨0, some 7⟩, ⟨1, some 8⟩] 3#64 ⟨2, []⟩ = .error .ub ∧
    RNG.range Math.u64 0 2 3#64 = .ok (0, RNG.next 3#64) := by decide +kernel

/-- Boxes are exchanged, also with themselves. -/
example : (swap false [⟨0, some 7⟩, ⟨1, some 8⟩] 0 1 ⟨2, []⟩) = .ok ([⟨0, some 8⟩, ⟨1, some 7⟩], ⟨3, [2]⟩) ∧
    (swap false [⟨0, some 7⟩, ⟨1, some 8⟩] 1 1 ⟨2, []⟩) = .ok ([⟨0, some 7⟩, ⟨1, some 8⟩], ⟨3, [2]⟩) := by decide +kernel

end Rpp.Props
