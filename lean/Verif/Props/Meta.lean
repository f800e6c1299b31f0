import Verif.Proof.Meta

/-!
# C117, C118, C119, C120: computations on types at compile time
-/

namespace Rpp.Props

open Rpp.Meta Rpp.Spec

/-! ## C117: packs and type lists -/

section
variable {τ : Type} [DecidableEq τ]

/-- `One_Is` is membership. -/
theorem C117_one_is (q : τ) (ts : List τ) : oneIs q ts = true ↔ q ∈ ts := by
  induction ts with
  | nil => simp [oneIs]
  | cons t ts ih =>
    cases ts with
    | nil => simp [oneIs]
    | cons u us =>
      rw [oneIs, Bool.or_eq_true, ih, decide_eq_true_iff, List.mem_cons (a := q) (b := t)]
      intro h
      cases h

/-- `All_Are`: every type of the pack is the given one. -/
theorem C117_all_are (q : τ) (ts : List τ) : allAre q ts = true ↔ ∀ t ∈ ts, t = q := by
  induction ts with
  | nil => simp [allAre]
  | cons t ts ih =>
    cases ts with
    | nil => simp [allAre, eq_comm]
    | cons u us =>
      rw [allAre, Bool.and_eq_true, ih, decide_eq_true_iff]
      · constructor
        · rintro ⟨h1, h2⟩ x hx
          rcases List.mem_cons.1 hx with rfl | hx
          · exact h1.symm
          · exact h2 x hx
        · intro h
          exact ⟨(h t List.mem_cons_self).symm, fun x hx => h x (List.mem_cons_of_mem _ hx)⟩
      · intro h
        cases h

/-- `All_Same`: any two types of the pack are equal. -/
theorem C117_all_same (ts : List τ) : allSame ts = true ↔ ∀ a ∈ ts, ∀ b ∈ ts, a = b := by
  induction ts with
  | nil => simp [allSame]
  | cons t ts ih =>
    cases ts with
    | nil => simp [allSame]
    | cons u us =>
      rw [allSame, Bool.and_eq_true, ih, decide_eq_true_iff]
      constructor
      · rintro ⟨rfl, h⟩ a ha b hb
        have ha' : a ∈ t :: us := by rcases List.mem_cons.1 ha with rfl | h <;> simp_all
        have hb' : b ∈ t :: us := by rcases List.mem_cons.1 hb with rfl | h <;> simp_all
        exact h a ha' b hb'
      · intro h
        exact ⟨h t (by simp) u (by simp), fun a ha b hb => h a (List.mem_cons_of_mem _ ha) b (List.mem_cons_of_mem _ hb)⟩

/-- `Distinct`: no type occurs twice. -/
theorem C117_distinct (ts : List τ) : distinct ts = true ↔ ts.Nodup := by
  induction ts with
  | nil => simp [distinct]
  | cons t ts ih =>
    cases ts with
    | nil => simp [distinct]
    | cons u us =>
      rw [distinct, Bool.and_eq_true, ih, List.nodup_cons (a := t), ← C117_one_is t (u :: us)]
      simp

/-- `Choose` compiles exactly for indices below the number of types and gives the type at that place. -/
theorem C117_choose (i : Nat) (ts : List τ) : choose i ts = ts[i]? := by
  induction ts generalizing i with
  | nil => cases i <;> rfl
  | cons t ts ih =>
    cases i with
    | zero => rfl
    | succ i => rw [choose, ih]; rfl

/-- `Index_Of` compiles exactly for types of the pack and gives the first place where the type stands. -/
theorem C117_index_of (t : τ) (ts : List τ) (i : Nat) :
    indexOf t ts = some i ↔ ts[i]? = some t ∧ ∀ j, j < i → ts[j]? ≠ some t := by
  induction ts generalizing i with
  | nil => simp [indexOf]
  | cons h ts ih =>
    rw [indexOf]
    by_cases e : t = h
    · subst e
      rw [if_pos rfl]
      constructor
      · intro h1
        cases h1
        exact ⟨rfl, fun j hj => absurd hj (by omega)⟩
      · rintro ⟨_, h2⟩
        cases i with
        | zero => rfl
        | succ i => exact absurd rfl (h2 0 (by omega))
    · rw [if_neg e]
      constructor
      · intro h1
        obtain ⟨k, hk, rfl⟩ := Option.map_eq_some_iff.1 h1
        obtain ⟨g1, g2⟩ := (ih k).1 hk
        refine ⟨by rw [Nat.add_comm]; simpa using g1, fun j hj => ?_⟩
        cases j with
        | zero => simpa using fun e' => e e'.symm
        | succ j => simpa using g2 j (by omega)
      · rintro ⟨h1, h2⟩
        cases i with
        | zero => exact absurd (by simpa using h1) (fun e' : h = t => e e'.symm)
        | succ i =>
          rw [(ih i).2 ⟨by simpa using h1, fun j hj => by simpa using h2 (j + 1) (by omega)⟩]
          simp [Nat.add_comm]

/-- For a pack of distinct types `Index_Of` and `Choose` are inverse to each other, which is what `Variant` relies on. -/
theorem C117_inverse {ts : List τ} (hd : distinct ts = true) {i : Nat} {t : τ} :
    choose i ts = some t ↔ indexOf t ts = some i := by
  rw [C117_choose, C117_index_of]
  refine ⟨fun h => ⟨h, fun j hj e => ?_⟩, fun h => h.1⟩
  have hn := (C117_distinct ts).1 hd
  have h1 := (List.getElem?_eq_some_iff.1 h).1
  obtain ⟨h0, e0⟩ := List.getElem?_eq_some_iff.1 e
  obtain ⟨h1', e1⟩ := List.getElem?_eq_some_iff.1 h
  exact (List.pairwise_iff_getElem.1 hn) j i h0 h1 hj (e0.trans e1.symm)

example : distinct [5, 3, 7] = true ∧ indexOf 3 [5, 3, 7] = some 1 ∧ choose 1 [5, 3, 7] = some 3 ∧
    distinct [5, 3, 5] = false ∧ indexOf 5 [5, 3, 5] = some 0 ∧ choose 3 [5, 3, 7] = none ∧ indexOf 4 [5, 3, 7] = none ∧
    allSame [2, 2, 2] = true ∧ allSame [2, 2, 3] = false := by decide

end

section
variable {τ : Type}

/-- The types in a type list, in order. -/
def types : TList τ → List τ
  | .nil => []
  | .cons h t => h :: types t

/-- `List<Ts...>` is a list of `Ts...`, and every type list is one. -/
theorem C117_list (ts : List τ) (l : TList τ) : types (make ts) = ts ∧ make (types l) = l := by
  constructor
  · induction ts with
    | nil => rfl
    | cons t ts ih => rw [make, types, ih]
  · induction l with
    | nil => rfl
    | cons h t ih => rw [types, make, ih]

theorem types_reverseAcc (l acc : TList τ) : types (reverseAcc l acc) = (types l).reverse ++ types acc := by
  induction l generalizing acc with
  | nil => rfl
  | cons h t ih => rw [reverseAcc, ih, types, types, List.reverse_cons, List.append_assoc]; rfl

/-- `Reverse`, `List_Length`, `All`, `Enumerate` do what their names say, and `Iter` applies the function to the members in
order. -/
theorem C117_list_functions (l : TList τ) (f : τ → Bool) :
    types (reverse l) = (types l).reverse ∧ length l = (types l).length ∧
    (all f l = true ↔ ∀ t ∈ types l, f t = true) ∧
    (∀ n (ts : List τ), types (enumerated n ts) = (List.range ts.length).map (n + ·)) ∧
    ∀ (σ : Type) (g : τ → σ → σ) (s : σ), iter g l s = (types l).foldl (fun s t => g t s) s := by
  refine ⟨?_, ?_, ?_, ?_, ?_⟩
  · rw [reverse, types_reverseAcc]
    exact List.append_nil _
  · induction l with
    | nil => rfl
    | cons h t ih => rw [length, types, List.length_cons, ih, Nat.add_comm]
  · induction l with
    | nil => simp [all, types]
    | cons h t ih => simp [all, types, ih]
  · intro n ts
    induction ts generalizing n with
    | nil => rfl
    | cons t ts ih =>
      rw [enumerated, types, ih, List.length_cons, List.range_succ_eq_map, List.map_cons, List.map_map]
      congr 1
      refine List.map_congr_left fun x _ => ?_
      show n + 1 + x = n + (x + 1)
      omega
  · intro σ g s
    induction l generalizing s with
    | nil => rfl
    | cons h t ih => rw [iter, types, List.foldl_cons, ih]

example : types (reverse (make [1, 2, 3])) = [3, 2, 1] ∧ types (enumerated 0 [7, 8, 9]) = [0, 1, 2] ∧
    iter (fun t (s : List Nat) => s ++ [t]) (make [1, 2, 3]) [] = [1, 2, 3] := by decide

end

/-! ## C118: `Decay` and the choice of `Refl`

Full statement: `Decay<T>` is `T` without reference, `const` and `volatile`; `Refl<T>` exists for every type made from a
reflected one by pointers, arrays, references and qualifiers, with the name of that type and the right kind. -/

/-- The ordering of the patterns used by the compiler is inclusion of the types they match. -/
theorem C118_specialised (p q : Pat) : p.le q = true ↔ ∀ t, (p.deduce t).isSome = true → (q.deduce t).isSome = true := by
  constructor
  · intro h t
    cases p <;> cases q <;> first
      | (exact fun h => h)
      | (intro _; rfl)
      | (simp [Pat.le] at h; done)
      | (simp only [Pat.deduce]; cases t.isConst <;> cases t.isVol <;> simp; done)
      | (cases t <;> simp [Pat.deduce, Ty.isConst]; done)
      | (cases t with
         | ptr c v u => cases c <;> cases v <;> simp [Pat.deduce]
         | arr u n => have e : (Ty.arr u n).isConst = u.isConst := rfl; simp only [Pat.deduce, e]; cases u.isConst <;> simp
         | _ => simp [Pat.deduce])
  · intro h
    have h1 := h (.base false false 0)
    have h2 := h (.base true false 0)
    have h3 := h (.base false true 0)
    have h4 := h (.base true true 0)
    have h5 := h (.lref (.base false false 0))
    have h6 := h (.rref (.base false false 0))
    have h7 := h (.ptr false false (.base false false 0))
    have h8 := h (.ptr false false (.base true false 0))
    have h9 := h (.arr (.base false false 0) 3)
    have h10 := h (.arr (.base true false 0) 3)
    cases p <;> cases q <;> simp [Pat.deduce, Ty.isConst, Ty.isVol, Pat.le] at *

/-- `Decay<T>` is `T` without reference, `const` and `volatile`, for all types except those that are both `const` and
`volatile`; for these it does not compile, as two specialisations match equally well. `_partial`: these types. -/
theorem C118_decay_partial {t : Ty} (hk : t.ok = true) :
    (¬ BothCv (noRef t) → decay t = .ok (some (noCv (noRef t)))) ∧ (BothCv (noRef t) → decay t = .ok none) :=
  decay_eq hk

/-- `Refl<T>` has the name of the type at the bottom and the kind of the outermost type constructor, for all types in which
no array of `volatile` elements occurs; otherwise it does not compile. `_partial`: arrays of `volatile`. -/
theorem C118_refl_partial {N : Type} (tab : Nat → Option (N × Kind)) {t : Ty} (hk : t.ok = true) :
    (¬ HasVolArray t → refl tab t = .ok (outer tab t)) ∧ (HasVolArray t → refl tab t = .ok none) :=
  refl_eq tab hk

/-- The property is false: `const volatile int` has no `Decay`, `volatile int[3]` no `Refl`, though `int` is reflected. -/
theorem C118_false :
    decay (.base true true 0) = .ok none ∧ decay (.lref (.base true true 0)) = .ok none ∧
    refl (fun _ => some ("int", .plain 0)) (.arr (.base false true 0) 3) = .ok none := by
  decide +kernel

example : decay (.lref (.base true false 5)) = .ok (some (.base false false 5)) ∧
    decay (.arr (.base true false 5) 3) = .ok (some (.arr (.base false false 5) 3)) ∧
    refl (fun _ => some ("int", .plain 0)) (.lref (.ptr true true (.arr (.base true false 0) 3))) =
      .ok (some ("int", .pointer)) := by
  decide +kernel

/-! ## C119: the concepts `Enum` and `Record`

Full statement: `Enum<T>` holds exactly if `T` is a reflected enumeration, `Record<T>` exactly if it is a reflected record;
`Enum_Case` and `Record_Field` hold of the members. -/

/-- The specialisations of `Refl` the library and its macros define. -/
inductive Defined : Info → Prop where
  | enum (e u : Ty) (cases : List Info) : Defined (ofEnum e u cases)
  | record (fields : List Info) : Defined (ofRecord fields)
  | plain (n : Nat) : Defined (ofPlain n)
  | pointer (u : Ty) : Defined (ofPointer .pointer u)
  | array (u : Ty) : Defined (ofPointer .array u)

/-- `Enum` holds exactly of enumerations. `_partial`: `Record`. -/
theorem C119_enum_partial {i : Info} (h : Defined i) : isEnum i = true ↔ i.kind = some .enum := by
  cases h <;> simp [isEnum, simple, ofEnum, ofRecord, ofPlain, ofPointer]

/-- `Record` holds of records and of enumerations: its requirements only say that the members exist, not that the
kind is right. -/
theorem C119_record {i : Info} (h : Defined i) :
    isRecord i = true ↔ i.kind = some .record ∨ i.kind = some .enum := by
  cases h <;> simp [isRecord, simple, ofEnum, ofRecord, ofPlain, ofPointer]

/-- `Reflectable` holds of everything the library reflects, and of nothing that lacks a name or a kind. -/
theorem C119_reflectable (i : Info) : (Defined i → reflectable i = true) ∧
    (reflectable i = true ↔ (∃ n, i.name = some n) ∧ ∃ k, i.kind = some k) := by
  refine ⟨fun h => by cases h <;> rfl, ?_⟩
  simp [reflectable, simple, Option.isSome_iff_exists]

/-- The property is false: `Record` holds of an enumeration; `Enum` holds of a specialisation with the kind of a record that has
the other members; and `Enum_Case`, `Record_Field` hold of nothing, for the name of a static member is an lvalue, so its type is
a reference. -/
theorem C119_false : (∀ e u cases, isRecord (ofEnum e u cases) = true) ∧
    (∀ e u cases, isEnum { ofEnum e u cases with kind := some .record } = true) ∧
    (∀ e, enumCase e = false) ∧ recordField = false := by
  refine ⟨fun e u cases => rfl, fun e u cases => rfl, fun e => ?_, by decide⟩
  have : compound literalTy literalTy = false := by decide
  simp [enumCase, this]

example : Defined (ofEnum (.base false false 7) (.base false false 2) []) ∧
    isEnum (ofEnum (.base false false 7) (.base false false 2) []) = true ∧ isEnum (ofRecord []) = false := by
  exact ⟨.enum _ _ _, by decide, by decide⟩

/-! ## C120: literals -/

/-- Literals made from strings without zero bytes (at most 31 characters and the terminator) are equal exactly if the strings
are. -/
theorem C120_literal {s t a b : List UInt8} (hs : 0 ∉ s) (ht : 0 ∉ t) (ha : literal (s ++ [0]) = some a)
    (hb : literal (t ++ [0]) = some b) : literalEq a b 32 = true ↔ s = t :=
  literal_eq hs ht ha hb

/-- Exactly the strings up to 31 characters are literals, and the bytes up to the first zero are the string. -/
theorem C120_contents {s : List UInt8} (hs : 0 ∉ s) :
    ((literal (s ++ [0])).isSome = true ↔ s.length ≤ 31) ∧
    ∀ a, literal (s ++ [0]) = some a → a.length = 32 ∧ a.takeWhile (· ≠ 0) = s :=
  literal_contents hs

example : literal [105, 54, 52, 0] = some ([105, 54, 52] ++ List.replicate 29 0) ∧
    literalEq ([105, 54, 52] ++ List.replicate 29 0) ([105, 51, 50] ++ List.replicate 29 0) 32 = false := by decide +kernel

end Rpp.Props
