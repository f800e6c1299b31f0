import Verif.Spec.Variant

namespace Rpp
namespace Variant
open VariantSpec
variable {V : Type}

theorem branch_of_lt {N : Nat} : ∀ (n k : Nat), k ≤ n → k < N → branch N k n = k
  | 0, k, h, _ => by simp [branch]; omega
  | n + 1, k, h, hN => by
    unfold branch
    by_cases c : k = n + 1
    · rw [if_pos ⟨by omega, c⟩, c]
    · rw [if_neg (fun d => c d.2)]
      exact branch_of_lt n k (by omega) hN

/-- The alternative of a valid index is called, for any number of alternatives. -/
theorem dispatch_of_lt {N k : Nat} (h : k < N) : dispatch N k = some k := by
  unfold dispatch
  split
  · rw [branch_of_lt 7 k (by omega) h]
  · rfl

/-- What every step keeps. -/
structure Good (A : List Alt) (s : St V) (e : Env V) : Prop where
  vars : Match s.vars e
  lt : ∀ i x, e i = some x → x.1 < A.length
  bal : Balance (md A) s

/-- Variable `i` is between `destruct` and `construct`. -/
structure Hole (A : List Alt) (s : St V) (e : Env V) (i : Nat) : Prop where
  vars : ∀ j, j ≠ i → match s.vars j, e j with
    | none, none => True
    | some o, some x => Holds o x
    | _, _ => False
  lt : ∀ j x, e j = some x → x.1 < A.length
  raw : ∃ o, s.vars i = some o ∧ owned A o = false
  bal : Balance (md A) s

theorem Good.var {A : List Alt} {s : St V} {e : Env V} (h : Good A s e) {i : Nat} {o : Var V} (ho : s.vars i = some o) :
    ∃ x, e i = some x ∧ Holds o x := by
  have := h.vars i
  rw [ho] at this
  cases hx : e i with
  | none => rw [hx] at this; exact this.elim
  | some x => rw [hx] at this; exact ⟨x, rfl, this⟩

theorem Good.none {A : List Alt} {s : St V} {e : Env V} (h : Good A s e) {i : Nat} (ho : s.vars i = none) :
    e i = none := by
  have := h.vars i
  rw [ho] at this
  cases hx : e i with
  | none => rfl
  | some x => rw [hx] at this; exact this.elim

theorem apply_of {A : List Alt} {o : Var V} {x : Nat × Option V} (h : Holds o x) (hx : x.1 < A.length) :
    ∃ c, apply A o = .ok (x.1, c) ∧ o.cell = some c ∧ c.alt = x.1 ∧ c.val = x.2 := by
  obtain ⟨h1, c, h2, h3, h4⟩ := h
  refine ⟨c, ?_, h2, h3, h4⟩
  unfold apply view
  rw [h1, dispatch_of_lt hx]; dsimp only
  rw [h2]; dsimp only
  rw [if_pos h3]; rfl

theorem owned_eq {A : List Alt} {o : Var V} (h : owned A o = false) {c : Obj V} (hc : o.cell = some c) : md A c.alt = false := by
  unfold owned at h; rw [hc] at h; exact h

theorem getElem?_concat_of_some {α : Type} {l : List α} {i : Nat} {a : α} (b : α) (h : l[i]? = some a) :
    (l ++ [b])[i]? = some a := by
  have hl : i < l.length := by
    rcases Nat.lt_or_ge i l.length with h1 | h1
    · exact h1
    · rw [List.getElem?_eq_none h1] at h; cases h
  rw [List.getElem?_append_left hl]; exact h

theorem getElem?_concat_cases {α : Type} {l : List α} {i : Nat} {a b : α} (h : (l ++ [b])[i]? = some a) :
    l[i]? = some a ∨ (i = l.length ∧ a = b) := by
  rcases Nat.lt_trichotomy i l.length with h1 | h1 | h1
  · rw [List.getElem?_append_left h1] at h; exact .inl h
  · subst h1; simp at h; exact .inr ⟨rfl, h.symm⟩
  · rw [List.getElem?_eq_none (by simp; omega)] at h; cases h

/-- An object made in the bytes of `i`, where nothing was owned. -/
theorem balance_put {A : List Alt} {s : St V} {i : Nat} (B : Balance (md A) s)
    (hraw : ∀ o c, s.vars i = some o → o.cell = some c → md A c.alt = false) (n k : Nat) (v : Option V) :
    Balance (md A) { (s.set i (some ⟨n, some ⟨k, s.made.length, v⟩⟩)) with made := s.made ++ [k] } := by
  have hcell : ∀ j (o' : Var V) (c : Obj V),
      (s.set i (some ⟨n, some ⟨k, s.made.length, v⟩⟩)).vars j = some o' → o'.cell = some c →
      (j = i ∧ c = ⟨k, s.made.length, v⟩) ∨ (j ≠ i ∧ s.vars j = some o') := by
    intro j o' c h1 h2
    unfold St.set at h1; dsimp only at h1
    split at h1
    · rename_i e1; cases h1; cases h2; exact .inl ⟨e1, rfl⟩
    · rename_i e1; exact .inr ⟨e1, h1⟩
  have hlen : ∀ {id k}, s.made[id]? = some k → id ≠ s.made.length := by
    intro id k h1 h2; subst h2; simp at h1
  refine ⟨B.once, ?_, ?_, ?_, ?_⟩
  · intro id hid
    obtain ⟨k', h1, h2⟩ := B.dead id hid
    exact ⟨k', getElem?_concat_of_some _ h1, h2⟩
  · intro j o' c h1 h2 h3
    rcases hcell j o' c h1 h2 with ⟨_, e2⟩ | ⟨_, e2⟩
    · subst e2
      refine ⟨by simp, fun d => ?_⟩
      obtain ⟨k', h4, _⟩ := B.dead _ d
      exact hlen h4 rfl
    · have := B.live j o' c e2 h2 h3
      exact ⟨getElem?_concat_of_some _ this.1, this.2⟩
  · intro j l o1 o2 c d h1 h2 h3 h4 hc hd h5
    rcases hcell j o1 c h1 h3 with ⟨a1, e1⟩ | ⟨a1, e1⟩ <;> rcases hcell l o2 d h2 h4 with ⟨a2, e2⟩ | ⟨a2, e2⟩
    · rw [a1, a2]
    · subst e1; exact absurd h5.symm (hlen (B.live l o2 d e2 h4 hd).1)
    · subst e2; exact absurd h5 (hlen (B.live j o1 c e1 h3 hc).1)
    · exact B.one j l o1 o2 c d e1 e2 h3 h4 hc hd h5
  · intro id k' hid hk
    rcases getElem?_concat_cases hid with h1 | ⟨h1, h2⟩
    · rcases B.all id k' h1 hk with h2 | ⟨j, o', c, h2, h3, h4, h5⟩
      · exact .inl h2
      · right
        refine ⟨j, o', c, ?_, h3, h4, h5⟩
        have : j ≠ i := by
          rintro rfl
          have := hraw o' c h2 h3
          rw [h5, hk] at this; cases this
        simp only [St.set, if_neg this]; exact h2
    · right
      exact ⟨i, ⟨n, some ⟨k, s.made.length, v⟩⟩, ⟨k, s.made.length, v⟩, by simp [St.set], rfl, h1.symm, h2.symm⟩

/-- A change of variable `i` that makes and destroys nothing. -/
theorem balance_set {A : List Alt} {s : St V} {i : Nat} (B : Balance (md A) s) (o' : Option (Var V))
    (h1 : ∀ p c, o' = some p → p.cell = some c → md A c.alt →
      ∃ o d, s.vars i = some o ∧ o.cell = some d ∧ d.id = c.id ∧ d.alt = c.alt)
    (h2 : ∀ o d, s.vars i = some o → o.cell = some d → md A d.alt →
      ∃ p c, o' = some p ∧ p.cell = some c ∧ c.id = d.id ∧ c.alt = d.alt) :
    Balance (md A) (s.set i o') := by
  have hcl : ∀ k (p : Var V) (d : Obj V), (s.set i o').vars k = some p → p.cell = some d → md A d.alt →
      ∃ q f, s.vars k = some q ∧ q.cell = some f ∧ f.id = d.id ∧ f.alt = d.alt := by
    intro k p d h3 h4 h5
    unfold St.set at h3; dsimp only at h3
    split at h3
    · rename_i e1; subst e1; exact h1 p d h3 h4 h5
    · exact ⟨p, d, h3, h4, rfl, rfl⟩
  refine ⟨B.once, B.dead, ?_, ?_, ?_⟩
  · intro k p d h3 h4 h5
    obtain ⟨q, f, a, b, e1, e2⟩ := hcl k p d h3 h4 h5
    rw [← e1, ← e2]; exact B.live k q f a b (by rw [e2]; exact h5)
  · intro k l o1 o2 d f h3 h4 h5 h6 hd hf h7
    obtain ⟨p, g, a, b, e1, e2⟩ := hcl k o1 d h3 h5 hd
    obtain ⟨p', g', a', b', e1', e2'⟩ := hcl l o2 f h4 h6 hf
    exact B.one k l p p' g g' a a' b b' (by rw [e2]; exact hd) (by rw [e2']; exact hf) (by rw [e1, e1', h7])
  · intro id k hid hk
    rcases B.all id k hid hk with h3 | ⟨j, p, d, h3, h4, h5, h6⟩
    · exact .inl h3
    · right
      by_cases hj : j = i
      · subst hj
        obtain ⟨q, c, a, b, e1, e2⟩ := h2 p d h3 h4 (by rw [h6]; exact hk)
        exact ⟨j, q, c, by simp [St.set, a], b, by rw [e1, h5], by rw [e2, h6]⟩
      · exact ⟨j, p, d, by simp only [St.set, if_neg hj]; exact h3, h4, h5, h6⟩

theorem new_hole {A : List Alt} {s : St V} {e : Env V} (h : Good A s e) {i : Nat} (hi : s.vars i = none) :
    Hole A (s.set i (some .raw)) e i := by
  refine ⟨fun j hj => ?_, h.lt, ⟨.raw, by simp [St.set], rfl⟩, balance_set h.bal _ ?_ ?_⟩
  · simp only [St.set, if_neg hj]; exact h.vars j
  · intro p c h1 h2 _; cases h1; cases h2
  · intro o d h1; rw [hi] at h1; cases h1

theorem destruct_hole {A : List Alt} (hA : A.length ≤ 255) {s : St V} {e : Env V} (h : Good A s e) {i : Nat} {o : Var V} (ho : s.vars i = some o) :
    ∃ s', destruct A s i = .ok s' ∧ Hole A s' e i ∧ ∀ j, j ≠ i → s'.vars j = s.vars j := by
  obtain ⟨x, hx, hh⟩ := h.var ho
  have hlt := h.lt i x hx
  obtain ⟨c, h1, h2, h3, h4⟩ := apply_of hh hlt
  have hset : ∀ (p : Var V) (d : List Nat), md A c.alt = false → p.cell = o.cell →
      Hole A (s.set i (some p)) e i := by
    intro p _ hm hp
    refine ⟨fun j hj => ?_, h.lt, ⟨p, by simp [St.set], ?_⟩, balance_set h.bal _ ?_ ?_⟩
    · simp only [St.set, if_neg hj]; exact h.vars j
    · unfold owned; rw [hp, h2]; exact hm
    · intro q d a b; cases a; intro _; exact ⟨o, d, ho, by rw [← hp]; exact b, rfl, rfl⟩
    · intro q d a b _; rw [ho] at a; cases a; exact ⟨p, d, rfl, by rw [hp]; exact b, rfl, rfl⟩
  unfold destruct
  rw [ho]; dsimp only
  by_cases hc : A.any (·.md) = true ∧ o.index ≠ invalid
  · rw [if_pos hc, h1]
    show ∃ s', (if md A x.1 = true then _ else _) = _ ∧ _
    by_cases hm : md A x.1 = true
    · rw [if_pos hm]
      refine ⟨_, rfl, ⟨fun j hj => ?_, h.lt, ⟨_, by simp [St.set]; rfl, rfl⟩, ?_⟩, fun j hj => by simp [St.set, hj]⟩
      · simp only [St.set, if_neg hj]; exact h.vars j
      · have B := h.bal
        have hmd : md A c.alt = true := by rw [h3]; exact hm
        have hl := B.live i o c ho h2 hmd
        have hcl : ∀ j (o' : Var V) (d : Obj V), (s.set i (some ⟨invalid, none⟩)).vars j = some o' → o'.cell = some d →
            j ≠ i ∧ s.vars j = some o' := by
          intro j o' d h1 h2
          unfold St.set at h1; dsimp only at h1
          split at h1
          · cases h1; cases h2
          · rename_i e1; exact ⟨e1, h1⟩
        refine ⟨?_, ?_, ?_, ?_, ?_⟩
        · refine List.nodup_append.mpr ⟨B.once, by simp, ?_⟩
          intro a ha b hb hab
          simp at hb; subst hb; subst hab; exact hl.2 ha
        · intro id hid
          rcases List.mem_append.mp hid with d | d
          · exact B.dead id d
          · simp at d; rw [d]; exact ⟨_, hl.1, hmd⟩
        · intro j o' d h5 h6 h7
          obtain ⟨hj, h5⟩ := hcl j o' d h5 h6
          have := B.live j o' d h5 h6 h7
          refine ⟨this.1, fun hd => ?_⟩
          rcases List.mem_append.mp hd with f | f
          · exact this.2 f
          · simp at f
            exact hj (B.one j i o' o d c h5 ho h6 h2 h7 hmd f)
        · intro j k o1 o2 d f h5 h6 h7 h8
          exact B.one j k o1 o2 d f (hcl j o1 d h5 h7).2 (hcl k o2 f h6 h8).2 h7 h8
        · intro id k hid hk
          rcases B.all id k hid hk with h5 | ⟨j, o', d, h5, h6, h7, h8⟩
          · exact .inl (List.mem_append_left _ h5)
          · by_cases hj : j = i
            · subst hj
              rw [ho] at h5; cases h5
              rw [h2] at h6; cases h6
              left; rw [← h7]; simp
            · right
              exact ⟨j, o', d, by simp only [St.set, if_neg hj]; exact h5, h6, h7, h8⟩
    · rw [if_neg hm]
      have hm : md A c.alt = false := by rw [h3]; simpa using hm
      exact ⟨_, rfl, hset _ [] hm rfl, fun j hj => by simp [St.set, hj]⟩
  · rw [if_neg hc]
    have hm : md A c.alt = false := by
      rw [h3]
      have hi : o.index ≠ invalid := by rw [hh.1]; unfold invalid; omega
      have hany : ¬ A.any (·.md) = true := fun d => hc ⟨d, hi⟩
      unfold md
      rw [List.getElem?_eq_getElem hlt]
      simp only [Option.map_some, Option.getD_some]
      cases hf : A[x.1].md with
      | false => rfl
      | true => exact absurd (List.any_eq_true.mpr ⟨_, List.getElem_mem hlt, hf⟩) hany
    exact ⟨_, rfl, hset _ [] hm rfl, fun j hj => by simp [St.set, hj]⟩

theorem fill {A : List Alt} {s : St V} {e : Env V} {i : Nat} (h : Hole A s e i) (k : Nat) (hk : k < A.length)
    (v : Option V) :
    Good A { (s.set i (some ⟨k, some ⟨k, s.made.length, v⟩⟩)) with made := s.made ++ [k] } (upd e i (some (k, v))) := by
  obtain ⟨o, ho, hr⟩ := h.raw
  refine ⟨fun j => ?_, fun j x hx => ?_, balance_put h.bal (fun o' c h1 h2 => ?_) k k v⟩
  · unfold upd
    by_cases c : j = i
    · simp only [St.set, c, if_true]; exact ⟨rfl, _, rfl, rfl, rfl⟩
    · simp only [St.set, if_neg c]; exact h.vars j c
  · unfold upd at hx; split at hx
    · cases hx; exact hk
    · exact h.lt j x hx
  · rw [ho] at h1; cases h1; exact owned_eq hr h2

theorem put_hole {A : List Alt} {s : St V} {e : Env V} {i : Nat} (h : Hole A s e i) (k : Nat) (hk : k < A.length)
    (v : Option V) : ∃ s', put A s i k v = .ok s' ∧ Good A s' (upd e i (some (k, v))) := by
  obtain ⟨o, ho, hr⟩ := h.raw
  unfold put
  rw [ho]; dsimp only
  rw [if_neg (by simp [hr])]
  exact ⟨_, rfl, fill h k hk v⟩

theorem bytes_hole {A : List Alt} {s : St V} {e : Env V} {i : Nat} (h : Hole A s e i) {j : Nat} (hj : j ≠ i)
    {x : Nat × Option V} (hx : e j = some x) :
    ∃ s', bytes A s i j = .ok s' ∧ Good A s' (upd e i (some x)) := by
  obtain ⟨o, ho, hr⟩ := h.raw
  have hv := h.vars j hj
  rw [hx] at hv
  unfold bytes
  rw [ho]
  cases hp : s.vars j with
  | none => rw [hp] at hv; exact hv.elim
  | some p =>
    rw [hp] at hv; dsimp only at hv ⊢
    obtain ⟨h1, c, h2, h3, h4⟩ := hv
    rw [if_neg (by simp [hr]), h2]; dsimp only
    refine ⟨_, rfl, ?_⟩
    have := fill h x.1 (h.lt j x hx) x.2
    obtain ⟨ca, ci, cv⟩ := c
    dsimp only at h3 h4 ⊢
    rw [h1, h3, h4]
    exact this

theorem take_hole {A : List Alt} {s : St V} {e : Env V} {i : Nat} (h : Hole A s e i) {j : Nat} (hj : j ≠ i)
    {x : Nat × Option V} (hx : e j = some x) :
    ∃ s', take A s j = .ok (x, s') ∧ Hole A s' (upd e j (some (leaves (tm A) x))) i := by
  have hv := h.vars j hj
  rw [hx] at hv
  unfold take
  cases hp : s.vars j with
  | none => rw [hp] at hv; exact hv.elim
  | some p =>
    rw [hp] at hv; dsimp only at hv ⊢
    have hlt := h.lt j x hx
    obtain ⟨c, h1, h2, h3, h4⟩ := apply_of hv hlt
    rw [h1]
    refine ⟨_, by show Except.ok ((x.1, c.val), _) = _; rw [h4], ⟨fun k hk => ?_, fun k y hy => ?_, ?_, balance_set h.bal _ ?_ ?_⟩⟩
    · unfold upd
      by_cases d : k = j
      · simp only [St.set, d, if_true]
        exact ⟨hv.1, _, rfl, h3, rfl⟩
      · simp only [St.set, if_neg d]; exact h.vars k hk
    · unfold upd at hy; split at hy
      · cases hy; exact hlt
      · exact h.lt k y hy
    · obtain ⟨o, ho, hr⟩ := h.raw
      exact ⟨o, by simp only [St.set, if_neg (fun d : i = j => hj d.symm)]; exact ho, hr⟩
    · intro q d a b _; cases a; cases b; exact ⟨p, c, hp, h2, rfl, rfl⟩
    · intro q d a b _; rw [hp] at a; cases a; rw [h2] at b; cases b; exact ⟨_, _, rfl, rfl, rfl, rfl⟩

theorem take_good {A : List Alt} {s : St V} {e : Env V} (h : Good A s e) {j : Nat}
    {x : Nat × Option V} (hx : e j = some x) :
    ∃ s', take A s j = .ok (x, s') ∧ Good A s' (upd e j (some (leaves (tm A) x))) := by
  have hv := h.vars j
  rw [hx] at hv
  unfold take
  cases hp : s.vars j with
  | none => rw [hp] at hv; exact hv.elim
  | some p =>
    rw [hp] at hv; dsimp only at hv ⊢
    have hlt := h.lt j x hx
    obtain ⟨c, h1, h2, h3, h4⟩ := apply_of hv hlt
    rw [h1]
    refine ⟨_, by show Except.ok ((x.1, c.val), _) = _; rw [h4], ⟨fun k => ?_, fun k y hy => ?_, balance_set h.bal _ ?_ ?_⟩⟩
    · unfold upd
      by_cases d : k = j
      · simp only [St.set, d, if_true]
        exact ⟨hv.1, _, rfl, h3, rfl⟩
      · simp only [St.set, if_neg d]; exact h.vars k
    · unfold upd at hy; split at hy
      · cases hy; exact hlt
      · exact h.lt k y hy
    · intro q d a b _; cases a; cases b; exact ⟨p, c, hp, h2, rfl, rfl⟩
    · intro q d a b _; rw [hp] at a; cases a; rw [h2] at b; cases b; exact ⟨_, _, rfl, rfl, rfl, rfl⟩

theorem tm_of_all {A : List Alt} (h : A.all (·.tm) = true) {k : Nat} (hk : k < A.length) : tm A k = true := by
  unfold tm
  rw [List.getElem?_eq_getElem hk]
  exact List.all_eq_true.mp h _ (List.getElem_mem hk)

theorem upd_same {e : Env V} {i : Nat} {x : Option (Nat × Option V)} (h : e i = x) : upd e i x = e := by
  funext j; unfold upd; split
  · rename_i c; rw [c, h]
  · rfl

theorem moveInto_hole {A : List Alt} {s : St V} {e : Env V} {i : Nat} (h : Hole A s e i) {j : Nat} (hj : j ≠ i)
    {x : Nat × Option V} (hx : e j = some x) :
    ∃ s', moveInto A s i j = .ok s' ∧ Good A s' (upd (upd e j (some (leaves (tm A) x))) i (some x)) := by
  have hlt := h.lt j x hx
  unfold moveInto
  by_cases ha : A.all (·.tm) = true
  · rw [if_pos ha]
    obtain ⟨s1, h1, g1⟩ := bytes_hole h hj hx
    refine ⟨s1, h1, ?_⟩
    have : upd e j (some (leaves (tm A) x)) = e := upd_same (by
      unfold leaves; rw [if_pos (tm_of_all ha hlt)]; exact hx)
    rw [this]; exact g1
  · rw [if_neg ha]
    obtain ⟨s1, h1, g1⟩ := take_hole h hj hx
    obtain ⟨s2, h2, g2⟩ := put_hole g1 x.1 hlt x.2
    exact ⟨s2, by rw [h1]; exact h2, g2⟩

/-- `i = move(i)`, for which the code does not keep the value. -/
def SelfMove : Op V → Prop
  | .moveTo i j => i = j
  | _ => False

theorem step_good {A : List Alt} (hA : A.length ≤ 255) {s : St V} {e : Env V} (p : Op V) (hp : ¬ SelfMove p)
    (h : Good A s e) :
    ∃ s', step A s p = .ok (s', (VariantSpec.step A.length (tm A) e p).2) ∧
      Good A s' (VariantSpec.step A.length (tm A) e p).1 := by
  cases p with
  | make i k v =>
    unfold step VariantSpec.step; dsimp only
    cases ho : s.vars i with
    | some o =>
      obtain ⟨x, hx, _⟩ := h.var ho
      rw [hx]; exact ⟨s, rfl, h⟩
    | none =>
      rw [h.none ho]; dsimp only
      by_cases hk : k < A.length
      · rw [if_pos hk, if_pos hk]
        obtain ⟨s1, h1, g1⟩ := put_hole (new_hole h ho) k hk (some v)
        exact ⟨s1, by rw [h1]; rfl, g1⟩
      · rw [if_neg hk, if_neg hk]; exact ⟨s, rfl, h⟩
  | moveNew i j =>
    unfold step VariantSpec.step; dsimp only
    cases ho : s.vars i with
    | some o =>
      obtain ⟨x, hx, _⟩ := h.var ho
      rw [hx]; exact ⟨s, rfl, h⟩
    | none =>
      rw [h.none ho]
      cases hoj : s.vars j with
      | none => rw [h.none hoj]; exact ⟨s, rfl, h⟩
      | some o =>
        obtain ⟨x, hx, _⟩ := h.var hoj
        have hne : j ≠ i := by rintro rfl; rw [ho] at hoj; cases hoj
        rw [hx]; dsimp only
        obtain ⟨s1, h1, g1⟩ := moveInto_hole (new_hole h ho) hne hx
        exact ⟨s1, by rw [h1]; rfl, g1⟩
  | del i =>
    unfold step VariantSpec.step; dsimp only
    cases ho : s.vars i with
    | none => rw [upd_same (h.none ho)]; exact ⟨s, rfl, h⟩
    | some o =>
      obtain ⟨s1, h1, g1, _⟩ := destruct_hole hA h ho
      obtain ⟨o', h3, h4⟩ := g1.raw
      dsimp only; rw [h1]
      refine ⟨s1.set i none, ?_, fun k => ?_, fun k x hx => ?_, balance_set g1.bal _ ?_ ?_⟩
      · show (match s1.vars i with | some o => _ | none => _) = _
        rw [h3]; dsimp only
        rw [if_neg (by simp [h4])]
      · unfold upd
        by_cases c : k = i
        · simp [St.set, c]
        · simp only [St.set, if_neg c]; exact g1.vars k c
      · unfold upd at hx; split at hx
        · cases hx
        · exact h.lt k x hx
      · intro q d a; cases a
      · intro q d a b hm; rw [h3] at a; cases a; rw [owned_eq h4 b] at hm; cases hm
  | moveTo i j =>
    unfold step VariantSpec.step; dsimp only
    cases ho : s.vars i with
    | none => rw [h.none ho]; exact ⟨s, rfl, h⟩
    | some o =>
      obtain ⟨x, hx, _⟩ := h.var ho
      rw [hx]
      cases hoj : s.vars j with
      | none => rw [h.none hoj]; exact ⟨s, rfl, h⟩
      | some oj =>
        obtain ⟨y, hy, _⟩ := h.var hoj
        rw [hy]; dsimp only
        obtain ⟨s1, h1, g1, _⟩ := destruct_hole hA h ho
        rw [h1]
        obtain ⟨s2, h2, g2⟩ := moveInto_hole g1 (fun c => hp c.symm) hy
        exact ⟨s2, by show (moveInto A s1 i j >>= _) = _; rw [h2]; rfl, g2⟩
  | clone i j =>
    unfold step VariantSpec.step; dsimp only
    cases ho : s.vars i with
    | some o =>
      obtain ⟨x, hx, _⟩ := h.var ho
      rw [hx]; exact ⟨s, rfl, h⟩
    | none =>
      rw [h.none ho]
      cases hoj : s.vars j with
      | none => rw [h.none hoj]; exact ⟨s, rfl, h⟩
      | some o =>
        obtain ⟨x, hx, hh⟩ := h.var hoj
        have hne : j ≠ i := by rintro rfl; rw [ho] at hoj; cases hoj
        have hlt := h.lt j x hx
        rw [hx]; dsimp only
        by_cases ha : A.all (·.tm) = true
        · rw [if_pos ha]
          obtain ⟨s1, h1, g1⟩ := bytes_hole (new_hole h ho) hne hx
          exact ⟨s1, by rw [h1]; rfl, g1⟩
        · rw [if_neg ha]
          obtain ⟨c, h1, h2, h3, h4⟩ := apply_of hh hlt
          rw [h1]
          have g0 := new_hole h ho
          have g1 : Hole A ({ (s.set i (some .raw)) with
              made := s.made ++ [x.1],
              dead := if md A x.1 = true then s.dead ++ [s.made.length] else s.dead } : St V) e i := by
            refine ⟨g0.vars, g0.lt, g0.raw, ?_⟩
            have B := g0.bal
            have hlen : ∀ {id k}, s.made[id]? = some k → id ≠ s.made.length := by
              intro id k h1 h2; subst h2; simp at h1
            refine ⟨?_, ?_, ?_, B.one, ?_⟩
            · dsimp only; split
              · refine List.nodup_append.mpr ⟨B.once, by simp, ?_⟩
                intro a ha b hb hab
                simp at hb; subst hb; subst hab
                obtain ⟨k', h5, _⟩ := B.dead _ ha
                exact hlen h5 rfl
              · exact B.once
            · intro id hid
              have hid : id ∈ s.dead ∨ (id = s.made.length ∧ md A x.1 = true) := by
                dsimp only at hid; split at hid
                · rename_i hm
                  rcases List.mem_append.mp hid with d | d
                  · exact .inl d
                  · simp at d; exact .inr ⟨d, hm⟩
                · exact .inl hid
              rcases hid with d | ⟨d, hm⟩
              · obtain ⟨k', h5, h6⟩ := B.dead id d
                exact ⟨k', getElem?_concat_of_some _ h5, h6⟩
              · exact ⟨x.1, by rw [d]; simp, hm⟩
            · intro k o d h5 h6 h7
              have := B.live k o d h5 h6 h7
              refine ⟨getElem?_concat_of_some _ this.1, fun f => ?_⟩
              dsimp only at f; split at f
              · rcases List.mem_append.mp f with f | f
                · exact this.2 f
                · simp at f; exact hlen this.1 f
              · exact this.2 f
            · intro id k hid hk
              rcases getElem?_concat_cases hid with h5 | ⟨h5, h6⟩
              · rcases B.all id k h5 hk with h7 | h7
                · left; dsimp only; split
                  · exact List.mem_append_left _ h7
                  · exact h7
                · exact .inr h7
              · left; dsimp only
                rw [if_pos (by rw [← h6]; exact hk), h5]; simp
          obtain ⟨s2, h5, g2⟩ := put_hole g1 x.1 hlt c.val
          rw [h4] at g2
          refine ⟨s2, ?_, g2⟩
          show (put A _ i x.1 c.val >>= _) = _
          have e1 : (s.set i (some (Var.raw : Var V))).made = s.made := rfl
          have e2 : (s.set i (some (Var.raw : Var V))).dead = s.dead := rfl
          rw [e1, e2, h5]; rfl
  | index i =>
    unfold step VariantSpec.step; dsimp only
    cases ho : s.vars i with
    | none => rw [h.none ho]; exact ⟨s, rfl, h⟩
    | some o =>
      obtain ⟨x, hx, hh⟩ := h.var ho
      have := h.lt i x hx
      rw [hx]; dsimp only
      rw [hh.1, if_neg (by unfold invalid; omega)]
      exact ⟨s, rfl, h⟩
  | visit i =>
    unfold step VariantSpec.step; dsimp only
    cases ho : s.vars i with
    | none => rw [h.none ho]; exact ⟨s, rfl, h⟩
    | some o =>
      obtain ⟨x, hx, hh⟩ := h.var ho
      obtain ⟨c, h1, _, _, h4⟩ := apply_of hh (h.lt i x hx)
      rw [hx]; dsimp only
      rw [h1, ← h4]
      exact ⟨s, rfl, h⟩
  | visitMove i =>
    unfold step VariantSpec.step; dsimp only
    cases ho : s.vars i with
    | none => rw [h.none ho]; exact ⟨s, rfl, h⟩
    | some o =>
      obtain ⟨x, hx, hh⟩ := h.var ho
      rw [hx]; dsimp only
      obtain ⟨s1, h1, g1⟩ := take_good h hx
      exact ⟨s1, by rw [h1]; rfl, g1⟩

theorem init_good (A : List Alt) : Good A (St.init : St V) (fun _ => none) := by
  refine ⟨fun i => trivial, (fun i x h => by cases h), ⟨by simp [St.init], by simp [St.init], ?_, ?_, ?_⟩⟩
  · intro i o c h; cases h
  · intro i j o p c d h; cases h
  · intro id k h; simp [St.init] at h

theorem run_append (A : List Alt) : ∀ (ps qs : List (Op V)) (s : St V), run A s (ps ++ qs) = (do
    let (s, os) ← run A s ps
    let (s, os') ← run A s qs
    .ok (s, os ++ os'))
  | [], qs, s => by
    show run A s qs = (run A s qs >>= _)
    cases run A s qs <;> rfl
  | p :: ps, qs, s => by
    have hr : ∀ l : List (Op V), run A s (p :: l) =
        (step A s p >>= fun x => run A x.1 l >>= fun y => .ok (y.1, x.2.toList ++ y.2)) := fun _ => rfl
    rw [List.cons_append, hr, hr]
    cases step A s p with
    | error e => rfl
    | ok r =>
      simp only [bind, Except.bind]
      rw [run_append A ps qs r.1]
      cases run A r.1 ps with
      | error e => rfl
      | ok q =>
        simp only [bind, Except.bind]
        cases run A q.1 qs with
        | error e => rfl
        | ok t => simp [bind, Except.bind, List.append_assoc]

/-- What `apply` does with an invalid index. -/
theorem dispatch_invalid {N : Nat} (h : N ≤ 255) : dispatch N invalid = if N ≤ 8 then some 0 else none := by
  unfold dispatch
  by_cases c : N ≤ 8
  · rw [if_pos c, if_pos c]
    simp [branch, invalid]
  · rw [if_neg c, if_neg c, if_neg (by unfold invalid; omega)]

/-- `v = move(v)` on the variable `i` that holds alternative `k`. -/
theorem self_move {A : List Alt} (hA : A.length ≤ 255) {s : St V} {i k : Nat} (hk : k < A.length) {o : Var V}
    (ho : s.vars i = some o) {v : Option V} (hh : Holds o (k, v)) :
    (A.all (·.tm) = true → ∃ s' o', step A s (.moveTo i i) = .ok (s', none) ∧ s'.vars i = some o' ∧ o'.index = invalid) ∧
    (A.all (·.tm) = false → (k = 0 ∧ md A 0 = false ∧ A.length ≤ 8) →
      ∃ s' o', step A s (.moveTo i i) = .ok (s', none) ∧ s'.vars i = some o' ∧ Holds o' (0, v)) ∧
    (A.all (·.tm) = false → ¬ (k = 0 ∧ md A 0 = false ∧ A.length ≤ 8) → step A s (.moveTo i i) = .error .ub) := by
  have ha := apply_of hh hk
  obtain ⟨hidx, c, hc, hcalt, hcv⟩ := hh
  obtain ⟨c', ha, hc'⟩ : ∃ c', apply A o = .ok (k, c') ∧ o.cell = some c' := by
    unfold apply
    rw [hidx, dispatch_of_lt hk]
    exact ⟨c, by simp [view, hc, hcalt, bind, Except.bind], hc⟩
  rw [hc] at hc'
  cases hc'
  dsimp only at hcalt hcv hidx
  have hne : o.index ≠ invalid := by rw [hidx]; unfold invalid; omega
  -- the state after `destruct`
  have hd : ∃ s1 o1, destruct A s i = .ok s1 ∧ s1.vars i = some o1 ∧ o1.index = invalid ∧
      o1.cell = (if md A k then none else some c) := by
    unfold destruct
    rw [ho]
    by_cases hany : A.any (·.md) = true
    · dsimp only
      rw [if_pos ⟨hany, hne⟩, ha]
      by_cases hm : md A k = true
      · refine ⟨_, _, by simp only [bind, Except.bind]; rw [if_pos hm], by simp [St.set]; rfl, rfl, by rw [if_pos hm]⟩
      · refine ⟨_, _, by simp only [bind, Except.bind]; rw [if_neg hm], by simp [St.set]; rfl, rfl, by rw [if_neg hm]; exact hc⟩
    · have hm : md A k = false := by
        unfold md
        rw [List.getElem?_eq_getElem hk]
        simp only [Option.map_some, Option.getD_some]
        have := List.getElem_mem hk
        rw [List.any_eq_true] at hany
        cases hx : A[k].md with
        | false => rfl
        | true => exact absurd ⟨_, this, hx⟩ hany
      dsimp only
      rw [if_neg (fun hx => hany hx.1)]
      exact ⟨_, _, rfl, by simp [St.set]; rfl, rfl, by rw [hm]; simpa using hc⟩
  obtain ⟨s1, o1, e1, h1, hi1, hc1⟩ := hd
  have hst : step A s (.moveTo i i) = (do let s ← moveInto A s1 i i; .ok (s, none)) := by
    simp only [step, ho, e1, bind, Except.bind]
  have hown : owned A o1 = false := by
    unfold owned
    rw [hc1]
    by_cases hm : md A k = true
    · rw [if_pos hm]
    · rw [if_neg hm]; dsimp only; rw [hcalt]; simpa using hm
  refine ⟨fun ht => ?_, fun ht hz => ?_, fun ht hz => ?_⟩
  · rw [hst]
    unfold moveInto
    rw [if_pos ht]
    unfold bytes
    rw [h1]
    dsimp only
    rw [if_neg (by rw [hown]; decide)]
    cases hcell : o1.cell with
    | none => exact ⟨_, o1, rfl, if_pos rfl, hi1⟩
    | some d => exact ⟨_, ⟨o1.index, some { d with id := s1.made.length }⟩, rfl, if_pos rfl, hi1⟩
  · obtain ⟨rfl, hm, hN⟩ := hz
    rw [hst]
    rw [hm] at hc1
    simp only [Bool.false_eq_true, if_false] at hc1
    have hap : apply A o1 = .ok (0, c) := by
      unfold apply
      rw [hi1, dispatch_invalid hA, if_pos hN]
      simp [view, hc1, hcalt, bind, Except.bind]
    unfold moveInto
    rw [if_neg (by rw [ht]; decide)]
    unfold take
    rw [h1]
    simp only [hap, bind, Except.bind]
    unfold put
    simp only [St.set, if_true]
    rw [if_neg (by unfold owned; dsimp only; rw [hcalt, hm]; decide)]
    exact ⟨_, ⟨0, some ⟨0, s1.made.length, c.val⟩⟩, rfl, if_pos rfl, rfl, _, rfl, rfl, hcv⟩
  · rw [hst]
    have hap : apply A o1 = .error .ub := by
      unfold apply
      rw [hi1, dispatch_invalid hA]
      by_cases hN : A.length ≤ 8
      · rw [if_pos hN]
        dsimp only
        have : view o1 0 = .error .ub := by
          unfold view
          rw [hc1]
          by_cases hm : md A k = true
          · rw [if_pos hm]
          · rw [if_neg hm]
            dsimp only
            rw [if_neg]
            rw [hcalt]
            rintro rfl
            exact hz ⟨rfl, by simpa using hm, hN⟩
        rw [this]; rfl
      · rw [if_neg hN]
    unfold moveInto
    rw [if_neg (by rw [ht]; decide)]
    unfold take
    rw [h1]
    simp only [hap, bind, Except.bind]

theorem run_good {A : List Alt} (hA : A.length ≤ 255) : ∀ (ps : List (Op V)) (s : St V) (e : Env V),
    (∀ p ∈ ps, ¬ SelfMove p) → Good A s e →
    ∃ s', run A s ps = .ok (s', (VariantSpec.run A.length (tm A) e ps).2) ∧
      Good A s' (VariantSpec.run A.length (tm A) e ps).1
  | [], s, e, _, h => ⟨s, rfl, h⟩
  | p :: r, s, e, hp, h => by
    obtain ⟨s1, h1, g1⟩ := step_good hA p (hp p (.head _)) h
    obtain ⟨s2, h2, g2⟩ := run_good hA r s1 _ (fun p hq => hp p (.tail _ hq)) g1
    refine ⟨s2, ?_, g2⟩
    unfold run
    rw [h1]
    show (run A s1 r >>= _) = _
    rw [h2]; rfl

end Variant
end Rpp
