import Verif.Spec.Function

namespace Rpp.Fun
open Rpp.Spec

variable {σ A R : Type}

/-- The closure in a function. -/
def absF (f : Fn σ) : Option (Nat × σ) :=
  match f.cell with
  | .obj _ t st => some (t, st)
  | _ => none

/-- The number of the closure in a function. -/
def idsF (f : Fn σ) : List Nat :=
  match f.cell with
  | .obj id _ _ => [id]
  | _ => []

/-- The same for a variable. -/
def idsO : Option (Fn σ) → List Nat
  | some f => idsF f
  | none => []

theorem idsO_obj (id t : Nat) (st : σ) (vt : Option Nat) : idsO (some ⟨.obj id t st, vt⟩) = [id] := rfl
theorem idsO_husk (t : Nat) (vt : Option Nat) : idsO (some (⟨.husk t, vt⟩ : Fn σ)) = [] := rfl
theorem idsO_raw (vt : Option Nat) : idsO (some (⟨.raw, vt⟩ : Fn σ)) = [] := rfl
theorem idsO_none : idsO (none : Option (Fn σ)) = [] := rfl

/-- The table tells what is in the storage. -/
def Good (f : Fn σ) : Prop := f.vt = (absF f).map Prod.fst

/-- The numbers of the closures in variables. -/
def live (s : St σ R) : List Nat := s.vars.flatMap idsO

/-- The functions hold what the specification says; every closure is in one variable or was destroyed once. -/
structure Inv (s : St σ R) (a : FunSt σ R) : Prop where
  vars : a.vars = s.vars.map (Option.map absF)
  out : a.out = s.out
  good : ∀ f, some f ∈ s.vars → Good f
  acct : ∀ b, (live s).count b + s.dtors.count b = if b < s.made then 1 else 0
  built : s.built = s.made + a.moves

theorem count_set {β : Type} (g : β → List Nat) (b : Nat) : ∀ (l : List β) (v : Nat) (x y : β), l[v]? = some y →
    ((l.set v x).flatMap g).count b + (g y).count b = (l.flatMap g).count b + (g x).count b
  | [], v, x, y, h => by simp at h
  | z :: l, 0, x, y, h => by
    simp at h
    subst h
    simp only [List.set_cons_zero, List.flatMap_cons, List.count_append]
    omega
  | z :: l, v + 1, x, y, h => by
    have := count_set g b l v x y (by simpa using h)
    simp only [List.set_cons_succ, List.flatMap_cons, List.count_append]
    omega

theorem get_eq {s : St σ R} {a : FunSt σ R} (I : Inv s a) (v : Nat) :
    (∃ f, s.get v = .ok f ∧ a.get v = .ok (absF f) ∧ s.vars[v]? = some (some f) ∧ Good f ∧ v < s.vars.length) ∨
    (s.get v = .error .ub ∧ a.get v = .error .ub) := by
  unfold St.get FunSt.get
  rw [I.vars, List.getElem?_map]
  rcases h : s.vars[v]? with _ | (_ | f)
  · exact .inr ⟨rfl, rfl⟩
  · exact .inr ⟨rfl, rfl⟩
  · exact .inl ⟨f, rfl, rfl, rfl, I.good f (List.mem_of_getElem? h), (List.getElem?_eq_some_iff.1 h).1⟩

theorem good_cases {f : Fn σ} (h : Good f) :
    (∃ id t st, f = ⟨.obj id t st, some t⟩) ∨ (∃ c, f = ⟨c, none⟩ ∧ absF f = none ∧ idsF f = []) := by
  obtain ⟨c, vt⟩ := f
  unfold Good at h
  cases c with
  | obj id t st =>
    have : vt = some t := h
    subst this
    exact .inl ⟨id, t, st, rfl⟩
  | raw =>
    have : vt = none := h
    subst this
    exact .inr ⟨_, rfl, rfl, rfl⟩
  | husk t =>
    have : vt = none := h
    subst this
    exact .inr ⟨_, rfl, rfl, rfl⟩

theorem good_set {l : List (Option (Fn σ))} {v : Nat} {x : Option (Fn σ)} (h : ∀ f, some f ∈ l → Good f)
    (hx : ∀ f, x = some f → Good f) : ∀ f, some f ∈ l.set v x → Good f := by
  intro f hf
  rcases List.mem_or_eq_of_mem_set hf with q | q
  · exact h f q
  · exact hx f q.symm

theorem exec_ok (call : Nat → σ → A → σ × R) {s : St σ R} {a : FunSt σ R} (I : Inv s a) (op : Op σ A) :
    match funStep call a op with
    | .ok a' => ∃ s', exec call s op = .ok s' ∧ Inv s' a'
    | .error e => exec call s op = .error e := by
  cases op with
  | make t st =>
    refine ⟨_, rfl, ?_, I.out, ?_, ?_, ?_⟩
    · simp [I.vars, absF]
    · intro f hf
      rcases List.mem_append.1 hf with q | q
      · exact I.good f q
      · simp at q; subst q; rfl
    · intro b
      have := I.acct b
      unfold live at this ⊢
      dsimp only
      rw [List.flatMap_append, List.count_append]
      simp only [List.flatMap_cons, List.flatMap_nil, List.append_nil, idsO_obj]
      rw [List.count_singleton]
      by_cases hb : b = s.made
      · subst hb
        simp at this ⊢
        omega
      · have hb' : ¬ (s.made == b) = true := by simpa using fun q => hb q.symm
        rw [if_neg hb']
        by_cases hl : b < s.made
        · rw [if_pos hl] at this; rw [if_pos (by omega)]; omega
        · rw [if_neg hl] at this; rw [if_neg (by omega)]; omega
    · dsimp only; have := I.built; omega
  | move v =>
    simp only [funStep, exec, bind, Except.bind]
    rcases get_eq I v with ⟨f, e1, e2, e3, hg, hl⟩ | ⟨e1, e2⟩
    · rw [e1, e2]
      dsimp only
      rcases good_cases hg with ⟨id, t, st, rfl⟩ | ⟨c, rfl, ha, hi⟩
      · dsimp only [moveTo]
        rw [if_pos rfl]
        refine ⟨_, rfl, ?_, I.out, ?_, ?_, ?_⟩
        · simp [I.vars, List.map_set, absF]
        · intro f hf
          rcases List.mem_append.1 hf with q | q
          · exact good_set I.good (fun f hf => by cases hf; rfl) f q
          · simp at q; subst q; rfl
        · intro b
          have := I.acct b
          have hc := count_set idsO b s.vars v
            (some ⟨.husk t, none⟩) _ e3
          unfold live at this ⊢
          dsimp only at hc ⊢
          rw [List.flatMap_append, List.count_append]
          simp only [List.flatMap_cons, List.flatMap_nil, List.append_nil, idsO_obj, idsO_husk, List.count_nil] at hc ⊢
          omega
        · have := I.built; simp [absF]; omega
      · refine ⟨_, rfl, ?_, I.out, ?_, ?_, ?_⟩
        · have : s.vars.set v (some ⟨c, none⟩) = s.vars := by
            obtain ⟨q1, q2⟩ := List.getElem?_eq_some_iff.1 e3
            rw [← q2, List.set_getElem_self]
          have ha2 : (s.vars.map (Option.map absF)).set v (some none) = s.vars.map (Option.map absF) := by
            have : (s.vars.map (Option.map absF))[v]? = some (some none) := by
              rw [List.getElem?_map, e3]; simp [ha]
            obtain ⟨q1, q2⟩ := List.getElem?_eq_some_iff.1 this
            rw [← q2, List.set_getElem_self]
          simp only [List.map_append, List.map_cons, List.map_nil, Option.map_some]
          rw [this, I.vars, ha2]
          rw [ha]; rfl
        · intro f hf
          rcases List.mem_append.1 hf with q | q
          · exact good_set I.good (fun f hf => by cases hf; exact hg) f q
          · simp at q; subst q; rfl
        · intro b
          have := I.acct b
          have hc := count_set idsO b s.vars v
            (some ⟨c, none⟩) _ e3
          unfold live at this ⊢
          dsimp only at hc ⊢
          rw [List.flatMap_append, List.count_append]
          simp only [List.flatMap_cons, List.flatMap_nil, List.append_nil, idsO_raw, List.count_nil] at hc ⊢
          omega
        · have := I.built; simp [ha]; omega
    · rw [e1, e2]
  | invoke v x =>
    simp only [funStep, exec, bind, Except.bind]
    rcases get_eq I v with ⟨f, e1, e2, e3, hg, hl⟩ | ⟨e1, e2⟩
    · rw [e1, e2]
      dsimp only
      rcases good_cases hg with ⟨id, t, st, rfl⟩ | ⟨c, rfl, ha, hi⟩
      · dsimp only [absF]
        rw [if_pos rfl]
        refine ⟨_, rfl, ?_, by simp [I.out], ?_, ?_, I.built⟩
        · simp [I.vars, List.map_set, absF]
        · exact good_set I.good (fun f hf => by cases hf; rfl)
        · intro b
          have := I.acct b
          have hc := count_set idsO b s.vars v
            (some ⟨.obj id t (call t st x).1, some t⟩) _ e3
          unfold live at this ⊢
          simp only [idsO_obj] at hc
          dsimp only
          omega
      · rw [ha]
    · rw [e1, e2]
  | leave v =>
    simp only [funStep, exec, bind, Except.bind]
    rcases get_eq I v with ⟨f, e1, e2, e3, hg, hl⟩ | ⟨e1, e2⟩
    · rw [e1, e2]
      dsimp only
      have hc := fun b => count_set idsO b s.vars v
            none _ e3
      rcases good_cases hg with ⟨id, t, st, rfl⟩ | ⟨c, rfl, ha, hi⟩
      · dsimp only [destruct]
        rw [if_pos rfl]
        refine ⟨_, rfl, ?_, I.out, ?_, ?_, I.built⟩
        · simp [I.vars, List.map_set]
        · exact good_set I.good (fun f hf => by cases hf)
        · intro b
          have := I.acct b
          have hc := hc b
          unfold live at this ⊢
          dsimp only at hc ⊢
          rw [List.count_append]
          simp only [idsO_obj, idsO_none, List.count_nil] at hc
          omega
      · dsimp only [destruct]
        refine ⟨_, rfl, ?_, I.out, ?_, ?_, I.built⟩
        · simp [I.vars, List.map_set]
        · exact good_set I.good (fun f hf => by cases hf)
        · intro b
          have := I.acct b
          have hc := hc b
          unfold live at this ⊢
          dsimp only at hc ⊢
          rw [show idsO (some (⟨c, none⟩ : Fn σ)) = [] from hi] at hc
          simp only [idsO_none, List.count_nil, List.append_nil] at hc ⊢
          omega
    · rw [e1, e2]
  | assign v w =>
    simp only [funStep, exec, bind, Except.bind]
    rcases get_eq I v with ⟨f, e1, e2, e3, hg, hl⟩ | ⟨e1, e2⟩
    · rw [e1, e2]
      dsimp only
      -- the old closure goes
      obtain ⟨f', d, hd, hf1, hf2, hf3⟩ : ∃ (f' : Fn σ) (d : List Nat), destruct f = .ok (f', d) ∧ f'.vt = none ∧
          d = idsF f ∧ absF f' = none := by
        rcases good_cases hg with ⟨id, t, st, rfl⟩ | ⟨c, rfl, ha, hi⟩
        · exact ⟨⟨.raw, none⟩, [id], by simp [destruct], rfl, rfl, rfl⟩
        · exact ⟨⟨c, none⟩, [], rfl, rfl, hi.symm, ha⟩
      have hi' : idsF f' = [] := by
        unfold absF at hf3; unfold idsF; split at hf3 <;> simp_all
      have hno : ∀ id t st, f'.cell ≠ .obj id t st := by
        intro id t st q; unfold absF at hf3; rw [q] at hf3; cases hf3
      have hgf' : Good f' := by unfold Good; rw [hf1, hf3]; rfl
      have hf'eq : ({ f' with vt := none } : Fn σ) = f' := by cases f'; cases hf1; rfl
      rw [hd]
      dsimp only
      -- the state in between
      generalize hs1 : ({ s with vars := s.vars.set v (some f'), dtors := s.dtors ++ d } : St σ R) = s1
      have I1 : Inv s1 { a with vars := a.vars.set v (some none) } := by
        subst hs1
        refine ⟨?_, I.out, ?_, ?_, I.built⟩
        · simp [I.vars, List.map_set, hf3]
        · exact good_set I.good (fun f hf => by cases hf; exact hgf')
        · intro b
          have := I.acct b
          have hc := count_set idsO b s.vars v
            (some f') _ e3
          unfold live at this ⊢
          dsimp only at hc ⊢
          rw [show idsO (some f') = [] from hi', show idsO (some f) = idsF f from rfl, List.count_nil] at hc
          rw [List.count_append, hf2]
          omega
      have hv1 : s1.vars[v]? = some (some f') := by subst hs1; simp [hl]
      have hga : ∀ x, v ≠ x → a.get x = FunSt.get { a with vars := a.vars.set v (some none) } x := by
        intro x hx
        unfold FunSt.get
        dsimp only
        rw [List.getElem?_set_ne hx]
      by_cases hvw : v = w
      · subst hvw
        have hget : s1.get v = .ok f' := by unfold St.get; rw [hv1]
        unfold assignFrom
        simp only [bind, Except.bind]
        rw [hget, e2]
        dsimp only
        rw [hf1, if_pos trivial]
        dsimp only
        have hset : s1.vars.set v (some f') = s1.vars := by
          obtain ⟨q1, q2⟩ := List.getElem?_eq_some_iff.1 hv1
          rw [← q2, List.set_getElem_self]
        rw [hf'eq, hset]
        have hget2 : St.get ({ s1 with vars := s1.vars } : St σ R) v = .ok f' := hget
        rw [hget2]
        dsimp only
        rw [hf'eq, hset]
        exact ⟨_, rfl, I1⟩
      · rw [hga w hvw]
        rcases get_eq I1 w with ⟨g, e1', e2', e3', hg', hl'⟩ | ⟨e1', e2'⟩
        · unfold assignFrom
          simp only [bind, Except.bind]
          rw [e1', e2']
          dsimp only
          rw [if_neg hvw]
          rcases good_cases hg' with ⟨id, t, st, rfl⟩ | ⟨c, rfl, ha, hi⟩
          · dsimp only
            have hmv : moveTo t (.obj id t st) f'.cell = .ok (.husk t, .obj id t st) := by
              unfold moveTo
              split
              · rename_i q; exact absurd q (hno _ _ _)
              · simp
            rw [hmv]
            refine ⟨_, rfl, ?_, I1.out, ?_, ?_, ?_⟩
            · have h2 := I1.vars
              dsimp only at h2
              simp only [List.map_set, ← h2, Option.map_some, absF, List.set_set]
            · exact good_set (good_set I1.good (fun f hf => by cases hf; rfl)) (fun f hf => by cases hf; rfl)
            · intro b
              have := I1.acct b
              have hc := count_set idsO b s1.vars v
                (some ⟨.obj id t st, some t⟩) _ hv1
              have hc2 := count_set idsO b
                (s1.vars.set v (some ⟨.obj id t st, some t⟩)) w (some ⟨.husk t, none⟩) _
                (by rw [List.getElem?_set_ne hvw]; exact e3')
              unfold live at this ⊢
              dsimp only at hc hc2 ⊢
              rw [show idsO (some f') = [] from hi'] at hc
              simp only [idsO_obj, idsO_husk, List.count_nil] at hc hc2
              omega
            · have := I1.built; simp [absF] at this ⊢; omega
          · dsimp only
            have hset : s1.vars.set v (some f') = s1.vars := by
              obtain ⟨q1, q2⟩ := List.getElem?_eq_some_iff.1 hv1
              rw [← q2, List.set_getElem_self]
            have hset2 : s1.vars.set w (some ⟨c, none⟩) = s1.vars := by
              obtain ⟨q1, q2⟩ := List.getElem?_eq_some_iff.1 e3'
              rw [← q2, List.set_getElem_self]
            rw [hf'eq, hset]
            have hget2 : St.get ({ s1 with vars := s1.vars } : St σ R) w = .ok ⟨c, none⟩ := e1'
            rw [hget2]
            dsimp only
            rw [hset2, ha]
            refine ⟨_, rfl, ?_, I1.out, I1.good, I1.acct, by simpa using I1.built⟩
            have h2 := I1.vars
            dsimp only at h2 ⊢
            rw [h2]
            have : (s1.vars.map (Option.map absF))[w]? = some (some none) := by
              rw [List.getElem?_map, e3']; simp [ha]
            obtain ⟨q1, q2⟩ := List.getElem?_eq_some_iff.1 this
            rw [← q2, List.set_getElem_self]
        · unfold assignFrom
          simp only [bind, Except.bind]
          rw [e1', e2']
    · rw [e1, e2]

theorem run_ok (call : Nat → σ → A → σ × R) : ∀ (ops : List (Op σ A)) {s : St σ R} {a : FunSt σ R}, Inv s a →
    match funRun call a ops with
    | .ok a' => ∃ s', run call s ops = .ok s' ∧ Inv s' a'
    | .error e => run call s ops = .error e
  | [], s, a, I => ⟨s, rfl, I⟩
  | op :: r, s, a, I => by
    have h := exec_ok call I op
    unfold funRun run
    simp only [bind, Except.bind]
    rcases hb : funStep call a op with e | a'
    · rw [hb] at h
      dsimp only at h ⊢
      rw [h]
    · rw [hb] at h
      obtain ⟨s', h1, h2⟩ := h
      rw [h1]
      exact run_ok call r h2

theorem inv_init : Inv (St.init : St σ R) ⟨[], [], 0⟩ :=
  ⟨rfl, rfl, fun f hf => by simp [St.init] at hf, fun b => by simp [live, St.init], rfl⟩

end Rpp.Fun
