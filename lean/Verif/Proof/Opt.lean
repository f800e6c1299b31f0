import Verif.Spec.Opt

namespace Rpp
namespace Opt
open OptSpec
variable {V : Type}

/-- What every step keeps. -/
def Good (T : Traits) (s : St V) (e : Env V) : Prop := Match T.triv s.vars e ∧ (T.triv = false → Balance s)

theorem Good.var {T : Traits} {s : St V} {e : Env V} (h : Good T s e) {i : Nat} {o : Var V} (ho : s.vars i = some o) :
    ∃ x, e i = some x ∧ Holds T.triv o x := by
  have := h.1 i
  rw [ho] at this
  cases hx : e i with
  | none => rw [hx] at this; exact this.elim
  | some x => rw [hx] at this; exact ⟨x, rfl, this⟩

theorem Good.none {T : Traits} {s : St V} {e : Env V} (h : Good T s e) {i : Nat} (ho : s.vars i = none) :
    e i = none := by
  have := h.1 i
  rw [ho] at this
  cases hx : e i with
  | none => rfl
  | some x => rw [hx] at this; exact this.elim

theorem match_set {triv : Bool} {s : St V} {e : Env V} (h : Match triv s.vars e) (i : Nat) (o : Var V)
    (x : Option (Option V)) (hx : Holds triv o x) (n : Nat) (d : List Nat) :
    Match triv ({ (s.set i (some o)) with next := n, dead := d } : St V).vars (upd e i (some x)) := by
  intro j
  unfold upd
  by_cases c : j = i
  · simp only [St.set, c, if_true]; exact hx
  · simp only [St.set, if_neg c]; exact h j

/-- Putting a payload into an empty variable. -/
theorem put_good {T : Traits} {s : St V} {e : Env V} (h : Good T s e) (i : Nat) (v : Option V)
    (hi : e i = some none) :
    ∃ s', put T s i v = .ok s' ∧ Good T s' (upd e i (some (some v))) := by
  have hm := h.1 i
  rw [hi] at hm
  cases ho : s.vars i with
  | none => rw [ho] at hm; exact hm.elim
  | some o =>
    rw [ho] at hm
    have hm : o.ok = false ∧ (T.triv = false → o.cell = none) := hm
    unfold put
    rw [ho]; dsimp only
    rw [if_neg (fun c => by rw [hm.2 c.2] at c; simp at c)]
    refine ⟨_, rfl, match_set h.1 i _ (some v) (show Holds _ _ (some v) from ⟨rfl, _, rfl, rfl⟩) _ _, fun ht => ?_⟩
    have B := h.2 ht
    have hc := hm.2 ht
    -- the objects after the step
    have hcell : ∀ j (o' : Var V) (c : Obj V), (s.set i (some ⟨true, some ⟨s.next, v⟩⟩)).vars j = some o' → o'.cell = some c →
        (j = i ∧ c = ⟨s.next, v⟩) ∨ (j ≠ i ∧ s.vars j = some o') := by
      intro j o' c h1 h2
      unfold St.set at h1; dsimp only at h1
      split at h1
      · rename_i e1; cases h1; cases h2; exact .inl ⟨e1, rfl⟩
      · rename_i e1; exact .inr ⟨e1, h1⟩
    refine ⟨B.once, fun id hid => Nat.lt_succ_of_lt (B.made id hid), ?_, ?_, ?_⟩
    · intro j o' c h1 h2
      rcases hcell j o' c h1 h2 with ⟨_, e2⟩ | ⟨_, e2⟩
      · subst e2
        exact ⟨Nat.lt_succ_self _, fun d => Nat.lt_irrefl _ (B.made _ d)⟩
      · have := B.live j o' c e2 h2
        exact ⟨Nat.lt_succ_of_lt this.1, this.2⟩
    · intro j k o1 o2 c d h1 h2 h3 h4 h5
      rcases hcell j o1 c h1 h3 with ⟨a1, e1⟩ | ⟨a1, e1⟩ <;> rcases hcell k o2 d h2 h4 with ⟨a2, e2⟩ | ⟨a2, e2⟩
      · rw [a1, a2]
      · subst e1; have := (B.live k o2 d e2 h4).1; dsimp only at h5; omega
      · subst e2; have := (B.live j o1 c e1 h3).1; dsimp only at h5; omega
      · exact B.one j k o1 o2 c d e1 e2 h3 h4 h5
    · intro id hid
      dsimp only at hid
      rcases Nat.lt_or_eq_of_le (Nat.le_of_lt_succ hid) with hlt | heq
      · rcases B.all id hlt with h1 | ⟨j, o', c, h1, h2, h3⟩
        · exact .inl h1
        · right
          refine ⟨j, o', c, ?_, h2, h3⟩
          have : j ≠ i := by rintro rfl; rw [ho] at h1; cases h1; rw [hc] at h2; cases h2
          simp only [St.set, if_neg this]; exact h1
      · right
        exact ⟨i, ⟨true, some ⟨s.next, v⟩⟩, ⟨s.next, v⟩, by simp [St.set], rfl, heq.symm⟩

theorem clear_good {T : Traits} {s : St V} {e : Env V} (h : Good T s e) (i : Nat) (o : Var V)
    (ho : s.vars i = some o) :
    ∃ s', clear T s i = .ok s' ∧ Good T s' (upd e i (some none)) ∧
      (∀ j, j ≠ i → s'.vars j = s.vars j) ∧
      (∃ o', s'.vars i = some o' ∧ o'.ok = false ∧ (T.triv = true → o'.cell = o.cell)) := by
  obtain ⟨x, hx, hh⟩ := h.var ho
  unfold clear
  rw [ho]; dsimp only
  by_cases hc : T.triv = false ∧ o.ok = true
  · rw [if_pos hc]
    cases x with
    | none => have := hh.1; rw [hc.2] at this; cases this
    | some x =>
      obtain ⟨_, c, hcell, _⟩ := hh
      rw [hcell]; dsimp only
      refine ⟨_, rfl, ⟨match_set h.1 i _ none (show Holds _ _ none from ⟨rfl, fun _ => rfl⟩) _ _, fun ht => ?_⟩,
        fun j hj => by simp [St.set, hj], ⟨_, by simp [St.set]; rfl, rfl, fun d => by rw [d] at hc; simp at hc⟩⟩
      have B := h.2 ht
      have hcl : ∀ j (o' : Var V) (d : Obj V), (s.set i (some ⟨false, none⟩)).vars j = some o' → o'.cell = some d →
          j ≠ i ∧ s.vars j = some o' := by
        intro j o' d h1 h2
        unfold St.set at h1; dsimp only at h1
        split at h1
        · cases h1; cases h2
        · rename_i e1; exact ⟨e1, h1⟩
      have hl := B.live i o c ho hcell
      refine ⟨?_, ?_, ?_, ?_, ?_⟩
      · refine List.nodup_append.mpr ⟨B.once, by simp, ?_⟩
        intro a ha b hb hab
        simp at hb; subst hb; subst hab; exact hl.2 ha
      · intro id hid
        rcases List.mem_append.mp hid with d | d
        · exact B.made id d
        · simp at d; rw [d]; exact hl.1
      · intro j o' d h1 h2
        obtain ⟨hj, h1⟩ := hcl j o' d h1 h2
        have := B.live j o' d h1 h2
        refine ⟨this.1, fun hd => ?_⟩
        rcases List.mem_append.mp hd with f | f
        · exact this.2 f
        · simp at f
          exact hj (B.one j i o' o d c h1 ho h2 hcell f)
      · intro j k o1 o2 d f h1 h2 h3 h4 h5
        exact B.one j k o1 o2 d f (hcl j o1 d h1 h3).2 (hcl k o2 f h2 h4).2 h3 h4 h5
      · intro id hid
        rcases B.all id hid with h1 | ⟨j, o', d, h1, h2, h3⟩
        · exact .inl (List.mem_append_left _ h1)
        · by_cases hj : j = i
          · subst hj
            rw [ho] at h1; cases h1
            rw [hcell] at h2; cases h2
            left; rw [← h3]; simp
          · right
            exact ⟨j, o', d, by simp only [St.set, if_neg hj]; exact h1, h2, h3⟩
  · rw [if_neg hc]
    refine ⟨_, rfl, ⟨?_, fun ht => ?_⟩, fun j hj => by simp [St.set, hj],
      ⟨{ o with ok := false }, by simp [St.set], rfl, fun _ => rfl⟩⟩
    · refine match_set h.1 i _ none (show Holds _ _ none from ⟨rfl, fun ht => ?_⟩) _ _
      cases x with
      | none => exact hh.2 ht
      | some x => exact absurd ⟨ht, hh.1⟩ hc
    · have hof : o.ok = false := by
        cases hf : o.ok with
        | false => rfl
        | true => exact absurd ⟨ht, hf⟩ hc
      have : s.set i (some { o with ok := false }) = s := by
        have e1 : ({ o with ok := false } : Var V) = o := by cases o; simp_all
        rw [e1]
        unfold St.set
        have : (fun j => if j = i then some o else s.vars j) = s.vars := by
          funext j; split
          · rename_i c; rw [c, ho]
          · rfl
        rw [this]
      rw [this]; exact h.2 ht

/-- Reading a payload to move it. -/
theorem take_good {T : Traits} {s : St V} {e : Env V} (h : Good T s e) (j : Nat) (x : Option V)
    (hj : e j = some (some x)) :
    ∃ s', take T s j = .ok (x, s') ∧ Good T s' (upd e j (some (some (moved T.triv x)))) := by
  have hm := h.1 j
  rw [hj] at hm
  cases ho : s.vars j with
  | none => rw [ho] at hm; exact hm.elim
  | some o =>
    rw [ho] at hm
    obtain ⟨hok, c, hc, hv⟩ : o.ok = true ∧ ∃ c, o.cell = some c ∧ c.val = x := hm
    unfold take
    rw [ho]; dsimp only
    rw [hc]; dsimp only
    rw [hv]
    refine ⟨_, rfl, ?_⟩
    by_cases ht : T.triv = true
    · rw [if_pos ht]
      have : upd e j (some (some (moved T.triv x))) = e := by
        funext k; unfold upd moved; rw [if_pos ht]
        split
        · rename_i d; rw [d, hj]
        · rfl
      rw [this]; exact h
    · rw [if_neg ht]
      have ht : T.triv = false := by simpa using ht
      refine ⟨match_set h.1 j { o with cell := some { c with val := none } } (some (moved T.triv x)) (show Holds _ _ (some _) from ⟨hok, { c with val := none }, rfl, by simp [moved, ht]⟩) _ _, fun _ => ?_⟩
      have B := h.2 ht
      have hcl : ∀ k (o' : Var V) (d : Obj V),
          (s.set j (some { o with cell := some { c with val := none } })).vars k = some o' → o'.cell = some d →
          ∃ p f, s.vars k = some p ∧ p.cell = some f ∧ f.id = d.id := by
        intro k o' d h1 h2
        unfold St.set at h1; dsimp only at h1
        split at h1
        · rename_i e1; cases h1; cases h2; exact ⟨o, c, e1 ▸ ho, hc, rfl⟩
        · exact ⟨o', d, h1, h2, rfl⟩
      refine ⟨B.once, B.made, ?_, ?_, ?_⟩
      · intro k o' d h1 h2
        obtain ⟨p, f, a, b, e1⟩ := hcl k o' d h1 h2
        rw [← e1]; exact B.live k p f a b
      · intro k l o1 o2 d f h1 h2 h3 h4 h5
        obtain ⟨p, g, a, b, e1⟩ := hcl k o1 d h1 h3
        obtain ⟨p', g', a', b', e1'⟩ := hcl l o2 f h2 h4
        exact B.one k l p p' g g' a a' b b' (by rw [e1, e1', h5])
      · intro id hid
        rcases B.all id hid with h1 | ⟨k, o', d, h1, h2, h3⟩
        · exact .inl h1
        · right
          by_cases hk : k = j
          · subst hk
            rw [ho] at h1; cases h1
            rw [hc] at h2; cases h2
            exact ⟨k, { o with cell := some { c with val := none } }, { c with val := none }, by simp [St.set], rfl, h3⟩
          · exact ⟨k, o', d, by simp only [St.set, if_neg hk]; exact h1, h2, h3⟩

/-- A new, empty variable. -/
theorem new_good {T : Traits} {s : St V} {e : Env V} (h : Good T s e) (i : Nat) (hi : s.vars i = none) :
    Good T (s.set i (some ⟨false, none⟩)) (upd e i (some none)) := by
  refine ⟨match_set h.1 i _ none (show Holds _ _ none from ⟨rfl, fun _ => rfl⟩) _ _, fun ht => ?_⟩
  have B := h.2 ht
  have hcl : ∀ j (o' : Var V) (d : Obj V), (s.set i (some ⟨false, none⟩)).vars j = some o' → o'.cell = some d →
      s.vars j = some o' := by
    intro j o' d h1 h2
    unfold St.set at h1; dsimp only at h1
    split at h1
    · cases h1; cases h2
    · exact h1
  refine ⟨B.once, B.made, fun j o d h1 h2 => B.live j o d (hcl j o d h1 h2) h2, ?_, ?_⟩
  · intro k l o1 o2 d f h1 h2 h3 h4 h5
    exact B.one k l o1 o2 d f (hcl k o1 d h1 h3) (hcl l o2 f h2 h4) h3 h4 h5
  · intro id hid
    rcases B.all id hid with h1 | ⟨j, o', d, h1, h2, h3⟩
    · exact .inl h1
    · right
      refine ⟨j, o', d, ?_, h2, h3⟩
      have : j ≠ i := by rintro rfl; rw [hi] at h1; cases h1
      simp only [St.set, if_neg this]; exact h1

theorem upd_upd (e : Env V) (i : Nat) (a b : Option (Option (Option V))) : upd (upd e i a) i b = upd e i b := by
  funext j; unfold upd; split <;> rfl

theorem upd_comm (e : Env V) {i j : Nat} (a b : Option (Option (Option V))) (h : i ≠ j) :
    upd (upd e i a) j b = upd (upd e j b) i a := by
  funext k; unfold upd
  by_cases c : k = j
  · rw [if_pos c, if_neg (fun d => h (d.symm.trans c)), if_pos c]
  · rw [if_neg c, if_neg c]

theorem upd_self (e : Env V) (i : Nat) (a : Option (Option (Option V))) : upd e i a i = a := by simp [upd]
theorem upd_ne (e : Env V) {i j : Nat} (a : Option (Option (Option V))) (h : j ≠ i) : upd e i a j = e j := by
  simp [upd, h]

/-- Moving the payload of another variable into an empty one. -/
theorem moveInto_good {T : Traits} {s : St V} {e : Env V} (h : Good T s e) (i j : Nat) (hi : e i = some none)
    (hj : ∃ y, e j = some y) :
    ∃ s', moveInto T s i j = .ok s' ∧ Good T s' (match e j with
      | some (some x) => upd (upd e j (some (some (moved T.triv x)))) i (some (some x))
      | _ => e) := by
  obtain ⟨y, hy⟩ := hj
  have hm := h.1 j
  rw [hy] at hm
  unfold moveInto
  cases ho : s.vars j with
  | none => rw [ho] at hm; exact hm.elim
  | some o =>
    rw [ho] at hm; dsimp only at hm ⊢
    rw [hy]
    cases y with
    | none =>
      have : o.ok = false := hm.1
      rw [if_neg (by simp [this])]
      exact ⟨s, rfl, h⟩
    | some x =>
      have hok : o.ok = true := hm.1
      rw [if_pos hok]
      have hne : i ≠ j := by rintro rfl; rw [hi] at hy; cases hy
      obtain ⟨s1, h1, g1⟩ := take_good h j x hy
      obtain ⟨s2, h2, g2⟩ := put_good g1 i x (by rw [upd_ne _ _ hne]; exact hi)
      exact ⟨s2, by rw [h1]; exact h2, g2⟩

/-- `i = move(*i)`, which the code does not support for owning payloads. -/
def SelfRef (T : Traits) : Op V → Prop
  | .setFrom i j => i = j ∧ T.triv = false
  | _ => False

theorem step_good {T : Traits} {s : St V} {e : Env V} (p : Op V) (hp : ¬ SelfRef T p) (h : Good T s e) :
    match OptSpec.step T.triv e p with
    | some (e', o) => ∃ s', step T s p = .ok (s', o) ∧ Good T s' e'
    | none => step T s p = .error .die := by
  cases p with
  | new i =>
    unfold step OptSpec.step; dsimp only
    cases ho : s.vars i with
    | none => rw [h.none ho]; exact ⟨_, rfl, new_good h i ho⟩
    | some o =>
      obtain ⟨x, hx, _⟩ := h.var ho
      rw [hx]; exact ⟨s, rfl, h⟩
  | make i v =>
    unfold step OptSpec.step; dsimp only
    cases ho : s.vars i with
    | none =>
      rw [h.none ho]; dsimp only
      obtain ⟨s1, h1, g1⟩ := put_good (new_good h i ho) i (some v) (upd_self _ _ _)
      rw [upd_upd] at g1
      exact ⟨s1, by rw [h1]; rfl, g1⟩
    | some o =>
      obtain ⟨x, hx, _⟩ := h.var ho
      rw [hx]; exact ⟨s, rfl, h⟩
  | moveNew i j =>
    unfold step OptSpec.step; dsimp only
    cases ho : s.vars i with
    | some o =>
      obtain ⟨x, hx, _⟩ := h.var ho
      rw [hx]; exact ⟨s, rfl, h⟩
    | none =>
      rw [h.none ho]
      cases hoj : s.vars j with
      | none => rw [h.none hoj]; exact ⟨s, rfl, h⟩
      | some o =>
        obtain ⟨x, hx, _⟩ := h.var hoj
        have hne : j ≠ i := by rintro rfl; rw [ho] at hoj; cases hoj
        rw [hx]; dsimp only
        obtain ⟨s1, h1, g1⟩ := moveInto_good (new_good h i ho) i j (upd_self _ _ _)
          ⟨x, by rw [upd_ne _ _ hne]; exact hx⟩
        rw [upd_ne _ _ hne, hx] at g1
        rw [h1]
        cases x with
        | none => exact ⟨s1, rfl, g1⟩
        | some x =>
          dsimp only at g1 ⊢
          rw [upd_comm _ _ _ hne.symm, upd_upd] at g1
          exact ⟨s1, rfl, g1⟩
  | del i =>
    unfold step OptSpec.step; dsimp only
    cases ho : s.vars i with
    | none =>
      have : upd e i none = e := by
        funext j; unfold upd; split
        · rename_i c; rw [c, h.none ho]
        · rfl
      rw [this]; exact ⟨s, rfl, h⟩
    | some o =>
      obtain ⟨s1, h1, g1, _, o', h3, h4, _⟩ := clear_good h i o ho
      dsimp only; rw [h1]
      have hcell : T.triv = false → o'.cell = none := by
        obtain ⟨x, hx, hh⟩ := g1.var h3
        rw [upd_self] at hx; cases hx
        exact hh.2
      refine ⟨s1.set i none, ?_, ?_, fun ht => ?_⟩
      · show (match s1.vars i with | some o => _ | none => _) = _
        rw [h3]; dsimp only
        rw [if_neg (fun c => by rw [hcell c.2] at c; simp at c)]
      · intro k
        by_cases c : k = i
        · simp [St.set, upd, c]
        · have := g1.1 k
          rw [upd_ne _ _ c] at this
          simp only [St.set, upd, if_neg c]; exact this
      · have B := g1.2 ht
        have hcl : ∀ j (p : Var V), (s1.set i none).vars j = some p → s1.vars j = some p := by
          intro j p h5; unfold St.set at h5; dsimp only at h5; split at h5
          · cases h5
          · exact h5
        refine ⟨B.once, B.made, fun j p c h5 h6 => B.live j p c (hcl j p h5) h6,
          fun k l o1 o2 d f h5 h6 => B.one k l o1 o2 d f (hcl k o1 h5) (hcl l o2 h6), fun id hid => ?_⟩
        rcases B.all id hid with h5 | ⟨j, p, c, h5, h6, h7⟩
        · exact .inl h5
        · right
          refine ⟨j, p, c, ?_, h6, h7⟩
          have : j ≠ i := by rintro rfl; rw [h3] at h5; cases h5; rw [hcell ht] at h6; cases h6
          simp only [St.set, if_neg this]; exact h5
  | moveTo i j =>
    unfold step OptSpec.step; dsimp only
    cases ho : s.vars i with
    | none => rw [h.none ho]; exact ⟨s, rfl, h⟩
    | some o =>
      obtain ⟨x, hx, _⟩ := h.var ho
      rw [hx]
      cases hoj : s.vars j with
      | none => rw [h.none hoj]; exact ⟨s, rfl, h⟩
      | some oj =>
        obtain ⟨y, hy, _⟩ := h.var hoj
        rw [hy]; dsimp only
        obtain ⟨s1, h1, g1, _⟩ := clear_good h i o ho
        rw [h1]
        by_cases hij : j = i
        · subst hij
          obtain ⟨s2, h2, g2⟩ := moveInto_good g1 j j (upd_self _ _ _) ⟨_, upd_self _ _ _⟩
          rw [upd_self] at g2; dsimp only at g2
          cases y with
          | none => exact ⟨s2, by show (moveInto T s1 j j >>= _) = _; rw [h2]; rfl, g2⟩
          | some y =>
            dsimp only
            rw [if_pos rfl]
            exact ⟨s2, by show (moveInto T s1 j j >>= _) = _; rw [h2]; rfl, g2⟩
        · obtain ⟨s2, h2, g2⟩ := moveInto_good g1 i j (upd_self _ _ _) ⟨y, by rw [upd_ne _ _ hij]; exact hy⟩
          rw [upd_ne _ _ hij, hy] at g2
          cases y with
          | none => exact ⟨s2, by show (moveInto T s1 i j >>= _) = _; rw [h2]; rfl, g2⟩
          | some y =>
            dsimp only at g2 ⊢
            rw [if_neg (fun c => hij c.symm)]
            rw [upd_comm _ _ _ (fun c => hij c.symm), upd_upd] at g2
            exact ⟨s2, by show (moveInto T s1 i j >>= _) = _; rw [h2]; rfl, g2⟩
  | set i v =>
    unfold step OptSpec.step; dsimp only
    cases ho : s.vars i with
    | none => rw [h.none ho]; exact ⟨s, rfl, h⟩
    | some o =>
      obtain ⟨x, hx, _⟩ := h.var ho
      rw [hx]; dsimp only
      obtain ⟨s1, h1, g1, _⟩ := clear_good h i o ho
      obtain ⟨s2, h2, g2⟩ := put_good g1 i (some v) (upd_self _ _ _)
      rw [upd_upd] at g2
      exact ⟨s2, by rw [h1]; show (put T s1 i (some v) >>= _) = _; rw [h2]; rfl, g2⟩
  | emplace i v =>
    unfold step OptSpec.step; dsimp only
    cases ho : s.vars i with
    | none => rw [h.none ho]; exact ⟨s, rfl, h⟩
    | some o =>
      obtain ⟨x, hx, _⟩ := h.var ho
      rw [hx]; dsimp only
      obtain ⟨s1, h1, g1, _⟩ := clear_good h i o ho
      obtain ⟨s2, h2, g2⟩ := put_good g1 i (some v) (upd_self _ _ _)
      rw [upd_upd] at g2
      exact ⟨s2, by rw [h1]; show (put T s1 i (some v) >>= _) = _; rw [h2]; rfl, g2⟩
  | setFrom i j =>
    unfold step OptSpec.step; dsimp only
    cases ho : s.vars i with
    | none => rw [h.none ho]; exact ⟨s, rfl, h⟩
    | some o =>
      obtain ⟨x, hx, hox⟩ := h.var ho
      rw [hx]
      cases hoj : s.vars j with
      | none => rw [h.none hoj]; exact ⟨s, rfl, h⟩
      | some oj =>
        obtain ⟨y, hy, hoy⟩ := h.var hoj
        rw [hy]; dsimp only
        cases y with
        | none =>
          have : oj.ok = false := hoy.1
          dsimp only; rw [if_neg (by simp [this])]
        | some y =>
          have : oj.ok = true := hoy.1
          dsimp only; rw [if_pos this]
          obtain ⟨s1, h1, g1, h3, o', h4, h5, h6⟩ := clear_good h i o ho
          rw [h1]
          by_cases hij : j = i
          · subst hij
            have ht : T.triv = true := by
              cases ht : T.triv with
              | true => rfl
              | false => exact absurd ⟨rfl, ht⟩ hp
            rw [ho] at hoj; cases hoj
            obtain ⟨_, c, hc, hv⟩ := hoy
            have h6 := h6 ht
            obtain ⟨s2, h7, g2⟩ := put_good g1 j y (upd_self _ _ _)
            rw [upd_upd] at g2
            rw [upd_upd]
            refine ⟨s2, ?_, g2⟩
            show (take T s1 j >>= _) = _
            unfold take
            rw [h4]; dsimp only; rw [h6, hc]; dsimp only
            rw [if_pos ht, hv]
            show (put T s1 j y >>= _) = _
            rw [h7]; rfl
          · obtain ⟨s2, h7, g2⟩ := take_good g1 j y (by rw [upd_ne _ _ hij]; exact hy)
            obtain ⟨s3, h8, g3⟩ := put_good g2 i y (by rw [upd_ne _ _ (fun c => hij c.symm), upd_self])
            rw [upd_comm _ _ _ (fun c => hij c.symm), upd_upd] at g3
            refine ⟨s3, ?_, g3⟩
            show (take T s1 j >>= _) = _
            rw [h7]
            show (put T s2 i y >>= _) = _
            rw [h8]; rfl
  | clear i =>
    unfold step OptSpec.step; dsimp only
    cases ho : s.vars i with
    | none => rw [h.none ho]; exact ⟨s, rfl, h⟩
    | some o =>
      obtain ⟨x, hx, _⟩ := h.var ho
      rw [hx]; dsimp only
      obtain ⟨s1, h1, g1, _⟩ := clear_good h i o ho
      exact ⟨s1, by rw [h1]; rfl, g1⟩
  | copyNew i j =>
    unfold step OptSpec.step; dsimp only
    cases ho : s.vars i with
    | some o =>
      obtain ⟨x, hx, _⟩ := h.var ho
      rw [hx]; exact ⟨s, rfl, h⟩
    | none =>
      rw [h.none ho]
      cases hoj : s.vars j with
      | none => rw [h.none hoj]; exact ⟨s, rfl, h⟩
      | some oj =>
        obtain ⟨y, hy, hh⟩ := h.var hoj
        rw [hy]; dsimp only
        refine ⟨_, rfl, ?_⟩
        split
        · rename_i ht
          exact ⟨match_set h.1 i _ _ hh _ _, fun c => by rw [ht] at c; cases c⟩
        · exact h
  | copyTo i j =>
    unfold step OptSpec.step; dsimp only
    cases ho : s.vars i with
    | none => rw [h.none ho]; exact ⟨s, rfl, h⟩
    | some o =>
      obtain ⟨x, hx, _⟩ := h.var ho
      rw [hx]
      cases hoj : s.vars j with
      | none => rw [h.none hoj]; exact ⟨s, rfl, h⟩
      | some oj =>
        obtain ⟨y, hy, hh⟩ := h.var hoj
        rw [hy]; dsimp only
        refine ⟨_, rfl, ?_⟩
        split
        · rename_i ht
          exact ⟨match_set h.1 i _ _ hh _ _, fun c => by rw [ht] at c; cases c⟩
        · exact h
  | clone i j =>
    unfold step OptSpec.step; dsimp only
    cases ho : s.vars i with
    | some o =>
      obtain ⟨x, hx, _⟩ := h.var ho
      rw [hx]; exact ⟨s, rfl, h⟩
    | none =>
      rw [h.none ho]
      cases hoj : s.vars j with
      | none => rw [h.none hoj]; exact ⟨s, rfl, h⟩
      | some oj =>
        obtain ⟨y, hy, hh⟩ := h.var hoj
        rw [hy]; dsimp only
        cases y with
        | none =>
          have : oj.ok = false := hh.1
          rw [if_neg (by simp [this])]
          exact ⟨_, rfl, new_good h i ho⟩
        | some y =>
          obtain ⟨hok, c, hc, hv⟩ := hh
          rw [if_pos hok, hc]; dsimp only
          have g0 := new_good h i ho
          have g1 : Good T ({ (s.set i (some ⟨false, none⟩)) with next := s.next + 1, dead := s.dead ++ [s.next] } : St V)
              (upd e i (some none)) := by
            refine ⟨g0.1, fun ht => ?_⟩
            have B := g0.2 ht
            refine ⟨?_, ?_, ?_, B.one, ?_⟩
            · refine List.nodup_append.mpr ⟨B.once, by simp, ?_⟩
              intro a ha b hb hab
              simp at hb; subst hb; subst hab
              exact Nat.lt_irrefl _ (B.made _ ha)
            · intro id hid
              rcases List.mem_append.mp hid with d | d
              · exact Nat.lt_succ_of_lt (B.made id d)
              · simp at d; rw [d]; exact Nat.lt_succ_self _
            · intro k o d h1 h2
              have := B.live k o d h1 h2
              refine ⟨Nat.lt_succ_of_lt this.1, fun f => ?_⟩
              rcases List.mem_append.mp f with f | f
              · exact this.2 f
              · simp at f; have := this.1; simp only [St.set] at this; omega
            · intro id hid
              dsimp only at hid
              rcases Nat.lt_or_eq_of_le (Nat.le_of_lt_succ hid) with hlt | heq
              · rcases B.all id hlt with h1 | h1
                · exact .inl (List.mem_append_left _ h1)
                · exact .inr h1
              · left; rw [heq]; simp
          obtain ⟨s2, h2, g2⟩ := put_good g1 i c.val (upd_self _ _ _)
          rw [upd_upd, hv] at g2
          refine ⟨s2, ?_, g2⟩
          rw [hv] at h2 ⊢
          show (put T _ i y >>= _) = _
          have : (s.set i (some (⟨false, none⟩ : Var V))).next = s.next := rfl
          have h3 : (s.set i (some (⟨false, none⟩ : Var V))).dead = s.dead := rfl
          rw [this, h3, h2]; rfl
  | ok i =>
    unfold step OptSpec.step; dsimp only
    cases ho : s.vars i with
    | none => rw [h.none ho]; exact ⟨s, rfl, h⟩
    | some o =>
      obtain ⟨x, hx, hh⟩ := h.var ho
      rw [hx]; dsimp only
      refine ⟨s, ?_, h⟩
      cases x with
      | none => have : o.ok = false := hh.1; rw [this]; rfl
      | some x => have : o.ok = true := hh.1; rw [this]; rfl
  | get i =>
    unfold step OptSpec.step; dsimp only
    cases ho : s.vars i with
    | none => rw [h.none ho]; exact ⟨s, rfl, h⟩
    | some o =>
      obtain ⟨x, hx, hh⟩ := h.var ho
      rw [hx]; dsimp only
      cases x with
      | none => have : o.ok = false := hh.1; dsimp only; rw [if_neg (by simp [this])]
      | some x =>
        obtain ⟨hok, c, hc, hv⟩ := hh
        dsimp only; rw [if_pos hok, hc, ← hv]
        exact ⟨s, rfl, h⟩
  | valueOr i v =>
    unfold step OptSpec.step; dsimp only
    cases ho : s.vars i with
    | none => rw [h.none ho]; exact ⟨s, rfl, h⟩
    | some o =>
      obtain ⟨x, hx, hh⟩ := h.var ho
      rw [hx]; dsimp only
      cases x with
      | none => have : o.ok = false := hh.1; dsimp only; rw [if_neg (by simp [this])]; exact ⟨s, rfl, h⟩
      | some x =>
        obtain ⟨hok, c, hc, hv⟩ := hh
        dsimp only; rw [if_pos hok, hc, ← hv]
        exact ⟨s, rfl, h⟩

theorem init_good (T : Traits) : Good T (St.init : St V) (fun _ => none) := by
  refine ⟨fun i => trivial, fun _ => ⟨by simp [St.init], by simp [St.init], ?_, ?_, ?_⟩⟩
  · intro i o c h; cases h
  · intro i j o p c d h; cases h
  · intro id h; simp [St.init] at h

theorem run_append (T : Traits) : ∀ (ps qs : List (Op V)) (s : St V), run T s (ps ++ qs) = (do
    let (s, os) ← run T s ps
    let (s, os') ← run T s qs
    .ok (s, os ++ os'))
  | [], qs, s => by
    show run T s qs = (run T s qs >>= _)
    cases run T s qs <;> rfl
  | p :: ps, qs, s => by
    have hr : ∀ l : List (Op V), run T s (p :: l) =
        (step T s p >>= fun x => run T x.1 l >>= fun y => .ok (y.1, x.2.toList ++ y.2)) := fun _ => rfl
    rw [List.cons_append, hr, hr]
    cases step T s p with
    | error e => rfl
    | ok r =>
      simp only [bind, Except.bind]
      rw [run_append T ps qs r.1]
      cases run T r.1 ps with
      | error e => rfl
      | ok q =>
        simp only [bind, Except.bind]
        cases run T q.1 qs with
        | error e => rfl
        | ok t => simp [bind, Except.bind, List.append_assoc]

theorem run_good {T : Traits} : ∀ (ps : List (Op V)) (s : St V) (e : Env V), (∀ p ∈ ps, ¬ SelfRef T p) → Good T s e →
    match OptSpec.run T.triv e ps with
    | some (e', os) => ∃ s', run T s ps = .ok (s', os) ∧ Good T s' e'
    | none => run T s ps = .error .die
  | [], s, e, _, h => ⟨s, rfl, h⟩
  | p :: r, s, e, hp, h => by
    have h1 := step_good p (hp p (.head _)) h
    unfold run OptSpec.run
    cases hs : OptSpec.step T.triv e p with
    | none =>
      rw [hs] at h1; dsimp only at h1
      simp only [Option.bind_eq_bind, Option.bind_none]
      rw [h1]; rfl
    | some eo =>
      obtain ⟨e1, o⟩ := eo
      rw [hs] at h1; dsimp only at h1
      obtain ⟨s1, h2, g1⟩ := h1
      have h3 := run_good r s1 e1 (fun p hq => hp p (.tail _ hq)) g1
      simp only [Option.bind_eq_bind, Option.bind_some]
      cases hr : OptSpec.run T.triv e1 r with
      | none =>
        rw [hr] at h3; dsimp only at h3
        simp only [Option.bind_none]
        rw [h2]
        show (run T s1 r >>= _) = _
        rw [h3]; rfl
      | some eos =>
        obtain ⟨e2, os⟩ := eos
        rw [hr] at h3; dsimp only at h3
        obtain ⟨s2, h4, g2⟩ := h3
        simp only [Option.bind_some]
        refine ⟨s2, ?_, g2⟩
        rw [h2]
        show (run T s1 r >>= _) = _
        rw [h4]; rfl

end Opt
end Rpp
