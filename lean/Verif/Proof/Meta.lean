import Verif.Spec.Meta

/-!
# Computations on types: helper lemmas
-/

namespace Rpp.Meta

open Rpp.Spec

/-- Not a reference. -/
def Ty.plain : Ty → Bool
  | .lref _ | .rref _ => false
  | _ => true

theorem isConst_dropConst (t : Ty) : t.dropConst.isConst = false := by
  induction t <;> simp_all [Ty.dropConst, Ty.isConst]

theorem isVol_dropConst (t : Ty) : t.dropConst.isVol = t.isVol := by
  induction t <;> simp_all [Ty.dropConst, Ty.isVol]

theorem isConst_dropVol (t : Ty) : t.dropVol.isConst = t.isConst := by
  induction t <;> simp_all [Ty.dropVol, Ty.isConst]

theorem isVol_dropVol (t : Ty) : t.dropVol.isVol = false := by
  induction t <;> simp_all [Ty.dropVol, Ty.isVol]

theorem plain_dropConst (t : Ty) : t.dropConst.plain = t.plain := by
  cases t <;> rfl

theorem plain_dropVol (t : Ty) : t.dropVol.plain = t.plain := by
  cases t <;> rfl

theorem noCv_dropConst (t : Ty) : noCv t.dropConst = noCv t := by
  induction t <;> simp_all [Ty.dropConst, noCv]

theorem noCv_dropVol (t : Ty) : noCv t.dropVol = noCv t := by
  induction t <;> simp_all [Ty.dropVol, noCv]

theorem noCv_self {t : Ty} (h1 : t.isConst = false) (h2 : t.isVol = false) : noCv t = t := by
  induction t <;> simp_all [Ty.isConst, Ty.isVol, noCv]

theorem bothCv_iff (t : Ty) : BothCv t ↔ t.isConst = true ∧ t.isVol = true := by
  induction t <;> simp_all [BothCv, Ty.isConst, Ty.isVol]

theorem volElem_iff (t : Ty) : VolElem t ↔ t.isVol = true := by
  induction t <;> simp_all [VolElem, Ty.isVol]

theorem deduce_ref {t : Ty} (h : t.plain = true) : Pat.lref.deduce t = none ∧ Pat.rref.deduce t = none := by
  cases t <;> simp_all [Ty.plain, Pat.deduce]

theorem select_decay {t : Ty} (h : t.plain = true) :
    select decayPats t = if t.isConst then (if t.isVol then none else some .const) else if t.isVol then some .vol else some .any := by
  obtain ⟨h1, h2⟩ := deduce_ref h
  have e1 : (Pat.const.deduce t).isSome = t.isConst := by simp only [Pat.deduce]; cases t.isConst <;> rfl
  have e2 : (Pat.vol.deduce t).isSome = t.isVol := by simp only [Pat.deduce]; cases t.isVol <;> rfl
  have e0 : (Pat.any.deduce t).isSome = true := rfl
  unfold select decayPats
  simp only [List.filter, e0, e1, e2, h1, h2, Option.isSome_none]
  cases t.isConst <;> cases t.isVol <;> rfl

theorem decayF_plain {f : Nat} {t : Ty} (h : t.plain = true) :
    decayF (f + 2) t = .ok (if t.isConst = true ∧ t.isVol = true then none else some (noCv t)) := by
  have base : ∀ {u : Ty} {f : Nat}, u.plain = true → u.isConst = false → u.isVol = false →
      decayF (f + 1) u = .ok (some (noCv u)) := by
    intro u f hu h1 h2
    rw [decayF, select_decay hu, h1, h2, noCv_self h1 h2]
    rfl
  rw [decayF, select_decay h]
  cases hc : t.isConst <;> cases hv : t.isVol
  · simp only [Bool.false_eq_true, if_false, false_and]
    rw [noCv_self hc hv]
  · simp only [Bool.false_eq_true, if_false, if_true, Pat.deduce, hv, false_and]
    rw [base (by rw [plain_dropVol, h]) (by rw [isConst_dropVol, hc]) (isVol_dropVol t), noCv_dropVol]
  · simp only [Bool.false_eq_true, if_false, if_true, Pat.deduce, hc, and_false]
    rw [base (by rw [plain_dropConst, h]) (isConst_dropConst t) (by rw [isVol_dropConst, hv]), noCv_dropConst]
  · simp

theorem size_pos (t : Ty) : 3 ≤ t.size := by
  induction t <;> simp only [Ty.size] <;> omega

theorem decay_eq {t : Ty} (hk : t.ok = true) :
    (¬ BothCv (noRef t) → decay t = .ok (some (noCv (noRef t)))) ∧ (BothCv (noRef t) → decay t = .ok none) := by
  have main : decay t = .ok (if (noRef t).isConst = true ∧ (noRef t).isVol = true then none else some (noCv (noRef t))) := by
    have hs := size_pos t
    unfold decay
    by_cases hp : t.plain = true
    · have : noRef t = t := by cases t <;> simp_all [Ty.plain, noRef]
      rw [this, show t.size + 1 = (t.size - 1) + 2 by omega, decayF_plain hp]
    · cases t with
      | lref u =>
        have hu : u.plain = true := by cases u <;> simp_all [Ty.ok, Ty.plain]
        have := size_pos u
        rw [decayF]
        have e : select decayPats (.lref u) = some .lref := rfl
        rw [e]
        simp only [Pat.deduce, noRef, Ty.size]
        rw [show 1 + u.size = (u.size - 1) + 2 by omega, decayF_plain hu]
        congr 1
      | rref u =>
        have hu : u.plain = true := by cases u <;> simp_all [Ty.ok, Ty.plain]
        have := size_pos u
        rw [decayF]
        have e : select decayPats (.rref u) = some .rref := rfl
        rw [e]
        simp only [Pat.deduce, noRef, Ty.size]
        rw [show 1 + u.size = (u.size - 1) + 2 by omega, decayF_plain hu]
        congr 1
      | _ => simp [Ty.plain] at hp
  rw [bothCv_iff, main]
  constructor
  · intro h
    rw [if_neg h]
  · intro h
    rw [if_pos h]

/-! ### Refl -/

variable {N : Type}

theorem size_dropConst (t : Ty) : t.dropConst.size = t.size := by
  induction t <;> simp_all [Ty.dropConst, Ty.size]

theorem root_dropConst (t : Ty) : root t.dropConst = root t := by
  induction t <;> simp_all [Ty.dropConst, root]

theorem hasVol_dropConst (t : Ty) : HasVolArray t.dropConst ↔ HasVolArray t := by
  induction t <;> simp_all [Ty.dropConst, HasVolArray, volElem_iff, isVol_dropConst]

theorem ok_dropConst (t : Ty) (h : t.ok = true) : t.dropConst.ok = true := by
  induction t with
  | arr t n ih =>
    cases t <;> simp_all [Ty.dropConst, Ty.ok]
  | ptr c v t ih => cases t <;> simp_all [Ty.dropConst, Ty.ok]
  | _ => simp_all [Ty.dropConst, Ty.ok]

/-- What the recursion gives for a type without reference. -/
def Good (tab : Nat → Option (N × Kind)) (t : Ty) (f : Nat) : Prop :=
  (¬ HasVolArray t → reflF tab f t = .ok (outer tab t)) ∧ (HasVolArray t → reflF tab f t = .ok none)

theorem outer_name (tab : Nat → Option (N × Kind)) {t : Ty} (h : t.plain = true) :
    (outer tab t).map (·.1) = (tab (root t)).map (·.1) := by
  cases t with
  | base c v n => rfl
  | ptr c v t => simp [outer, noRef, root]; cases tab (root t) <;> rfl
  | arr t n => simp [outer, noRef, root]; cases tab (root t) <;> rfl
  | _ => simp [Ty.plain] at h

theorem outer_none (tab : Nat → Option (N × Kind)) {t : Ty} (h : t.plain = true) :
    outer tab t = none ↔ tab (root t) = none := by
  have := outer_name tab h
  cases h1 : outer tab t <;> cases h2 : tab (root t) <;> simp_all

theorem select_refl_base (c v : Bool) (n : Nat) : select reflPats (.base c v n) =
    if c then (if v then some .cv else some .const) else if v then some .vol else none := by
  cases c <;> cases v <;> rfl

theorem select_refl_ptr (c v : Bool) (t : Ty) : select reflPats (.ptr c v t) =
    if c then (if v then some .cv else some .const) else if v then some .vol
      else if t.isConst then some .ptrConst else some .ptr := by
  cases c <;> cases v <;> first
    | rfl
    | (cases h : t.isConst <;> simp [select, reflPats, Pat.deduce, h, List.filter, Ty.isConst, Ty.isVol, Pat.le])

theorem select_refl_arr (t : Ty) (n : Nat) : select reflPats (.arr t n) =
    if t.isVol then none else if t.isConst then some .arrConst else some .arr := by
  cases h1 : t.isVol <;> cases h2 : t.isConst <;>
    simp [select, reflPats, Pat.deduce, h1, h2, List.filter, Ty.isConst, Ty.isVol, Pat.le]

theorem good_base (tab : Nat → Option (N × Kind)) (c v : Bool) (n f : Nat) : Good tab (.base c v n) (f + 2) := by
  refine ⟨fun _ => ?_, fun h => h.elim⟩
  have e : reflF tab (f + 1) (.base false false n) = .ok (tab n) := rfl
  cases c <;> cases v
  · rfl
  all_goals
    rw [reflF.eq_3 _ _ _ (by intro n h; cases h), select_refl_base]
    simp only [Bool.false_eq_true, if_true, if_false, Pat.deduce, Ty.isConst, Ty.isVol, Bool.and_self, Ty.dropConst, Ty.dropVol]
    rw [e]
    simp only [outer, noRef]
    cases tab n <;> rfl

/-- One step from a pointer or array to what it is made of. -/
theorem good_step (tab : Nat → Option (N × Kind)) {t u : Ty} {f : Nat} {k : Kind} {p : Pat} (hb : ∀ n, t ≠ .base false false n)
    (hs : select reflPats t = some p) (hd : p.deduce t = some u) (hu : u.plain = true) (hg : Good tab u f)
    (hp : (p = .ptr ∨ p = .ptrConst) ∧ k = .pointer ∨ (p = .arr ∨ p = .arrConst) ∧ k = .array)
    (ho : outer tab t = (tab (root u)).map fun x => (x.1, k)) (hv : HasVolArray t ↔ HasVolArray u) : Good tab t (f + 1) := by
  constructor
  · intro h
    rw [reflF.eq_3 _ _ _ (fun n e => hb n e), hs]
    simp only [hd]
    rw [hg.1 (fun h' => h (hv.2 h')), ho]
    have hn := outer_name tab hu
    cases h1 : outer tab u with
    | none =>
      rw [(outer_none tab hu).1 h1]
      rfl
    | some x =>
      obtain ⟨n, k'⟩ := x
      cases h2 : tab (root u) with
      | none => rw [(outer_none tab hu).2 h2] at h1; cases h1
      | some y =>
        rw [h1, h2] at hn
        simp only [Option.map_some, Option.some.injEq] at hn
        subst hn
        rcases hp with ⟨rfl | rfl, rfl⟩ | ⟨rfl | rfl, rfl⟩ <;> rfl
  · intro h
    rw [reflF.eq_3 _ _ _ (fun n e => hb n e), hs]
    simp only [hd]
    rw [hg.2 (hv.1 h)]

/-- One step that takes qualifiers off. -/
theorem good_cv (tab : Nat → Option (N × Kind)) {t u : Ty} {f : Nat} {p : Pat} (hb : ∀ n, t ≠ .base false false n)
    (hs : select reflPats t = some p) (hd : p.deduce t = some u) (hg : Good tab u f)
    (hp : p = .const ∨ p = .vol ∨ p = .cv ∨ p = .lref ∨ p = .rref)
    (ho : outer tab t = outer tab u) (hv : HasVolArray t ↔ HasVolArray u) : Good tab t (f + 1) := by
  constructor
  · intro h
    rw [reflF.eq_3 _ _ _ (fun n e => hb n e), hs]
    simp only [hd]
    rw [hg.1 (fun h' => h (hv.2 h')), ho]
    cases outer tab u with
    | none => rfl
    | some x => rcases hp with rfl | rfl | rfl | rfl | rfl <;> rfl
  · intro h
    rw [reflF.eq_3 _ _ _ (fun n e => hb n e), hs]
    simp only [hd]
    rw [hg.2 (hv.1 h)]

theorem good_plain (tab : Nat → Option (N × Kind)) : ∀ (s : Nat) (t : Ty), t.size = s → t.ok = true → t.plain = true →
    ∀ f, s ≤ f → Good tab t f := by
  intro s
  induction s using Nat.strongRecOn with
  | _ s ih =>
    intro t hs hk hp f hf
    cases t with
    | base c v n =>
      simp only [Ty.size] at hs
      rw [show f = (f - 2) + 2 by omega]
      exact good_base tab c v n _
    | ptr c v t =>
      simp only [Ty.size] at hs
      have ht : t.ok = true ∧ t.plain = true := by cases t <;> simp_all [Ty.ok, Ty.plain]
      have bare : ∀ f, s ≤ f + 1 → Good tab (.ptr false false t) f := by
        intro f hf
        rw [show f = (f - 1) + 1 by omega]
        by_cases hc : t.isConst = true
        · refine good_step tab (p := .ptrConst) (u := t.dropConst) (k := .pointer) (by intro n h; cases h) ?_ ?_ ?_ ?_
            (.inl ⟨.inr rfl, rfl⟩) ?_ ?_
          · rw [select_refl_ptr, hc]; rfl
          · simp [Pat.deduce, hc]
          · rw [plain_dropConst, ht.2]
          · exact ih t.size (by omega) _ (size_dropConst t) (ok_dropConst t ht.1) (by rw [plain_dropConst, ht.2]) _ (by omega)
          · simp [outer, noRef, root_dropConst]
          · rw [hasVol_dropConst]; rfl
        · refine good_step tab (p := .ptr) (u := t) (k := .pointer) (by intro n h; cases h) ?_ rfl ht.2 ?_
            (.inl ⟨.inl rfl, rfl⟩) ?_ Iff.rfl
          · rw [select_refl_ptr, if_neg (by simp), if_neg (by simp), if_neg hc]
          · exact ih t.size (by omega) t rfl ht.1 ht.2 _ (by omega)
          · simp [outer, noRef]
      by_cases hcv : c = false ∧ v = false
      · obtain ⟨rfl, rfl⟩ := hcv
        exact bare f (by omega)
      · rw [show f = (f - 1) + 1 by omega]
        cases c <;> cases v
        · exact absurd ⟨rfl, rfl⟩ hcv
        · exact good_cv tab (p := .vol) (u := .ptr false false t) (by intro n h; cases h) (by rw [select_refl_ptr]; rfl) rfl
            (bare _ (by omega)) (by simp) rfl Iff.rfl
        · exact good_cv tab (p := .const) (u := .ptr false false t) (by intro n h; cases h) (by rw [select_refl_ptr]; rfl) rfl
            (bare _ (by omega)) (by simp) rfl Iff.rfl
        · exact good_cv tab (p := .cv) (u := .ptr false false t) (by intro n h; cases h) (by rw [select_refl_ptr]; rfl) rfl
            (bare _ (by omega)) (by simp) rfl Iff.rfl
    | arr t n =>
      simp only [Ty.size] at hs
      have ht : t.ok = true ∧ t.plain = true := by cases t <;> simp_all [Ty.ok, Ty.plain]
      rw [show f = (f - 1) + 1 by omega]
      by_cases hv : t.isVol = true
      · refine ⟨fun h => absurd (.inl ((volElem_iff t).2 hv)) h, fun _ => ?_⟩
        rw [reflF.eq_3 _ _ _ (by intro n h; cases h), select_refl_arr, if_pos hv]
      · by_cases hc : t.isConst = true
        · refine good_step tab (p := .arrConst) (u := t.dropConst) (k := .array) (by intro n h; cases h) ?_ ?_ ?_ ?_
            (.inr ⟨.inr rfl, rfl⟩) ?_ ?_
          · rw [select_refl_arr, if_neg hv, if_pos hc]
          · simp [Pat.deduce, hc]
          · rw [plain_dropConst, ht.2]
          · exact ih t.size (by omega) _ (size_dropConst t) (ok_dropConst t ht.1) (by rw [plain_dropConst, ht.2]) _ (by omega)
          · simp [outer, noRef, root_dropConst]
          · rw [hasVol_dropConst]
            simp [HasVolArray, volElem_iff, hv]
        · refine good_step tab (p := .arr) (u := t) (k := .array) (by intro n h; cases h) ?_ rfl ht.2 ?_
            (.inr ⟨.inl rfl, rfl⟩) ?_ ?_
          · rw [select_refl_arr, if_neg hv, if_neg hc]
          · exact ih t.size (by omega) t rfl ht.1 ht.2 _ (by omega)
          · simp [outer, noRef]
          · simp [HasVolArray, volElem_iff, hv]
    | _ => simp [Ty.plain] at hp

theorem refl_eq (tab : Nat → Option (N × Kind)) {t : Ty} (hk : t.ok = true) :
    (¬ HasVolArray t → refl tab t = .ok (outer tab t)) ∧ (HasVolArray t → refl tab t = .ok none) := by
  show Good tab t (t.size + 1)
  by_cases hp : t.plain = true
  · exact good_plain tab t.size t rfl hk hp _ (by omega)
  · cases t with
    | lref u =>
      have hu : u.ok = true ∧ u.plain = true := by cases u <;> simp_all [Ty.ok, Ty.plain]
      refine good_cv tab (p := .lref) (u := u) (by intro n h; cases h) rfl rfl
        (good_plain tab u.size u rfl hu.1 hu.2 _ (by simp only [Ty.size]; omega)) (by simp) ?_ Iff.rfl
      cases u <;> simp_all [outer, noRef, Ty.plain]
    | rref u =>
      have hu : u.ok = true ∧ u.plain = true := by cases u <;> simp_all [Ty.ok, Ty.plain]
      refine good_cv tab (p := .rref) (u := u) (by intro n h; cases h) rfl rfl
        (good_plain tab u.size u rfl hu.1 hu.2 _ (by simp only [Ty.size]; omega)) (by simp) ?_ Iff.rfl
      cases u <;> simp_all [outer, noRef, Ty.plain]
    | _ => simp [Ty.plain] at hp

/-! ### Literals -/

theorem literalEq_iff (a b : List UInt8) : ∀ n, n ≤ 32 → (literalEq a b n = true ↔ ∀ i, 32 - n ≤ i → i < 32 → a[i]? = b[i]?) := by
  intro n
  induction n with
  | zero => intro _; simp [literalEq]; intros; omega
  | succ n ih =>
    intro hn
    rw [literalEq]
    split
    · rename_i h
      constructor
      · intro h'; cases h'
      · intro h'
        exact absurd (h' (31 - n) (by omega) (by omega)) h
    · rename_i h
      have h : a[31 - n]? = b[31 - n]? := Classical.not_not.1 h
      rw [ih (by omega)]
      constructor
      · intro h' i h1 h2
        by_cases e : i = 31 - n
        · rw [e]; exact h
        · exact h' i (by omega) h2
      · intro h' i h1 h2
        exact h' i (by omega) h2

theorem literal_some {s a : List UInt8} (h : literal s = some a) : s.length ≤ 32 ∧ a = s ++ List.replicate (32 - s.length) 0 := by
  unfold literal at h
  split at h
  · exact ⟨‹_›, (Option.some.inj h).symm⟩
  · cases h

theorem takeWhile_literal {s : List UInt8} (hs : 0 ∉ s) (r : List UInt8) : (s ++ [0] ++ r).takeWhile (· ≠ 0) = s := by
  induction s with
  | nil => simp
  | cons x s ih =>
    simp only [List.mem_cons, not_or] at hs
    have := ih hs.2
    simp only [List.append_assoc] at this
    rw [List.append_assoc, List.cons_append, List.takeWhile_cons_of_pos (by simpa using Ne.symm hs.1), this]

theorem literal_contents {s : List UInt8} (hs : 0 ∉ s) :
    ((literal (s ++ [0])).isSome = true ↔ s.length ≤ 31) ∧
    ∀ a, literal (s ++ [0]) = some a → a.length = 32 ∧ a.takeWhile (· ≠ 0) = s := by
  constructor
  · unfold literal
    split <;> simp_all
  · intro a h
    obtain ⟨h1, rfl⟩ := literal_some h
    refine ⟨?_, takeWhile_literal hs _⟩
    simp only [List.length_append, List.length_replicate, List.length_cons, List.length_nil] at *
    omega

theorem literal_eq {s t a b : List UInt8} (hs : 0 ∉ s) (ht : 0 ∉ t) (ha : literal (s ++ [0]) = some a)
    (hb : literal (t ++ [0]) = some b) : literalEq a b 32 = true ↔ s = t := by
  obtain ⟨la, ta⟩ := (literal_contents hs).2 a ha
  obtain ⟨lb, tb⟩ := (literal_contents ht).2 b hb
  rw [literalEq_iff a b 32 (Nat.le_refl _)]
  constructor
  · intro h
    have : a = b := List.ext_getElem? fun i => by
      by_cases hi : i < 32
      · exact h i (by omega) hi
      · rw [List.getElem?_eq_none (by omega), List.getElem?_eq_none (by omega)]
    rw [← ta, ← tb, this]
  · rintro rfl i _ _
    rw [ha] at hb
    rw [Option.some.inj hb]

end Rpp.Meta
