import Verif.Proof.Rc

/-! The operations on `Rc` handles. -/

namespace Rpp
namespace Rc
variable {α : Type}

theorem rc_ok_bind {β γ : Type} (a : β) (f : β → Res γ) : (Except.ok a >>= f) = f a := rfl

theorem handles_eq (s : St α) (b : Nat) : s.handles b = cnt s.locs s.target b := rfl

theorem Good.inv {s : St α} (h : Good s) (hs : s.vars.length + s.blks.length < 2 ^ 64) :
    Inv s s.target [] := by
  refine ⟨fun _ _ e => e, ?_, h.live, by simp, by simpa using hs, h.once, h.dead⟩
  intro b k hb
  rw [h.count b k hb, handles_eq]; simp

theorem Good.pos {s : St α} (h : Good s) {b : Nat} {k : Blk α} (hb : s.blk b = some k) : k.refs ≠ 0 := by
  have := h.used b k hb
  have := h.count b k hb
  omega

theorem Inv.good {s : St α} {G : Loc → Option Nat} (h : Inv s G []) (e : ∀ l, s.target l = G l)
    (hp : ∀ b k, s.blk b = some k → k.refs ≠ 0) : Good s := by
  have e : s.target = G := funext e
  subst e
  refine ⟨?_, ?_, h.live, h.once, h.dead⟩
  · intro b k hb
    have := h.count b k hb
    rw [handles_eq]; simpa using this
  · intro b k hb
    have := h.count b k hb
    have := hp b k hb
    rw [handles_eq]; simp at *; omega

theorem get_target {s : St α} {l : Loc} {h : Option Nat} (e : s.get l = .ok h) : s.target l = h := by
  cases l with
  | var i =>
    unfold St.get at e
    simp only at e
    split at e
    · rename_i h' eq
      injection e with e; subst e
      simp [St.target, eq]
    · cases e
  | fld b =>
    unfold St.get at e
    simp only at e
    split at e
    · rename_i k eq
      injection e with e; subst e
      simp [St.target, eq]
    · cases e

theorem get_mem {s : St α} {l : Loc} {h : Option Nat} (e : s.get l = .ok h) : l ∈ s.locs := by
  cases l with
  | var i =>
    rw [mem_locs_var]
    unfold St.get at e
    simp only at e
    split at e
    · rename_i h' eq
      exact (List.getElem?_eq_some_iff.mp eq).1
    · cases e
  | fld b =>
    rw [mem_locs_fld]
    unfold St.get at e
    simp only at e
    split at e
    · rename_i k eq; exact blk_lt eq
    · cases e

theorem get_var {s : St α} {i : Nat} {h : Option Nat} (e : s.vars[i]? = some (some h)) :
    s.get (.var i) = .ok h := by simp [St.get, e]

theorem get_fld {s : St α} {b : Nat} {k : Blk α} (e : s.blk b = some k) : s.get (.fld b) = .ok k.next := by
  simp [St.get, e]

/-- Same blocks with the same counts. -/
def Same (s s' : St α) : Prop :=
  (∀ x, (s'.blk x).map Blk.refs = (s.blk x).map Blk.refs) ∧ s'.blks.length = s.blks.length ∧
    s'.vars.length = s.vars.length ∧ s'.dead = s.dead

theorem Same.some {s s' : St α} (h : Same s s') {x : Nat} {k' : Blk α} (e : s'.blk x = some k') :
    ∃ k, s.blk x = some k ∧ k'.refs = k.refs := by
  have := h.1 x
  rw [e] at this
  cases e2 : s.blk x with
  | none => rw [e2] at this; cases this
  | some k => rw [e2] at this; exact ⟨k, rfl, by simpa using this⟩

theorem Same.isSome {s s' : St α} (h : Same s s') (x : Nat) : (s'.blk x).isSome = (s.blk x).isSome := by
  have := congrArg Option.isSome (h.1 x)
  simpa using this

theorem Same.locs {s s' : St α} (h : Same s s') : s'.locs = s.locs := by
  unfold St.locs; rw [h.2.1, h.2.2.1]

theorem set_spec {s : St α} {l : Loc} {h0 : Option Nat} (e : s.get l = .ok h0) (h : Option Nat) :
    ∃ s', s.set l h = .ok s' ∧ Same s s' ∧ (∀ l', s'.target l' = upd s.target l h l') ∧
      s'.get l = .ok h ∧ (∀ l' h', l' ≠ l → s.get l' = .ok h' → s'.get l' = .ok h') ∧
      (∀ i, Loc.var i ≠ l → s'.vars[i]? = s.vars[i]?) ∧ (∀ x k, s.blk x = some k →
        ∃ k', s'.blk x = some k' ∧ k'.val = k.val) := by
  cases l with
  | var i =>
    unfold St.get at e
    simp only at e
    split at e
    · rename_i h' eq
      have hlt := (List.getElem?_eq_some_iff.mp eq).1
      have hg : ({ s with vars := s.vars.set i (some h) } : St α).vars[i]? = some (some h) := by
        simp [List.getElem?_set, hlt]
      have ho : ∀ j, j ≠ i → ({ s with vars := s.vars.set i (some h) } : St α).vars[j]? = s.vars[j]? := by
        intro j hj; simp only; rw [List.getElem?_set_ne (Ne.symm hj)]
      refine ⟨{ s with vars := s.vars.set i (some h) }, by simp [St.set, eq],
        ⟨fun x => rfl, rfl, by simp, rfl⟩, ?_, by simp only [St.get, hg], ?_, ?_, fun x k hk => ⟨k, hk, rfl⟩⟩
      · intro l'
        cases l' with
        | var j =>
          by_cases ej : j = i
          · subst ej; rw [upd_same]; simp only [St.target, hg]; rfl
          · rw [upd_other _ _ (by simpa using ej)]; simp only [St.target, ho j ej]
        | fld x => rw [upd_other _ _ (by simp)]; rfl
      · intro l' h' hne hl'
        cases l' with
        | var j =>
          have ej : j ≠ i := by simpa using hne
          unfold St.get at hl' ⊢
          simp only [ho j ej]
          exact hl'
        | fld x => exact hl'
      · intro j hj; exact ho j (by simpa using hj)
    · cases e
  | fld b =>
    unfold St.get at e
    simp only at e
    split at e
    · rename_i k eq
      have hlt := blk_lt eq
      have hblk : ∀ x, (s.setBlk b (some { k with next := h })).blk x =
        if x = b then some { k with next := h } else s.blk x := fun x => setBlk_blk _ x hlt
      refine ⟨s.setBlk b (some { k with next := h }), by simp [St.set, eq],
        ⟨?_, by simp [St.setBlk], rfl, rfl⟩, ?_, ?_, ?_, fun _ _ => rfl, ?_⟩
      · intro x; rw [hblk]; split
        · rename_i e2; subst e2; rw [eq]; rfl
        · rfl
      · intro l'
        cases l' with
        | var j => rw [upd_other _ _ (by simp)]; rfl
        | fld x =>
          rw [target_fld, hblk]
          by_cases ej : x = b
          · subst ej; rw [upd_same, if_pos rfl]; rfl
          · rw [upd_other _ _ (by simpa using ej), if_neg ej]; rfl
      · exact get_fld (k := { k with next := h }) (by rw [hblk, if_pos rfl])
      · intro l' h' hne hl'
        cases l' with
        | var j => exact hl'
        | fld x =>
          have ej : x ≠ b := by simpa using hne
          unfold St.get at hl' ⊢
          simp only [hblk, if_neg ej]
          exact hl'
      · intro x k' hk
        rw [hblk]
        by_cases ej : x = b
        · subst ej; rw [eq] at hk; injection hk with hk; subst hk
          rw [if_pos rfl]; exact ⟨_, rfl, rfl⟩
        · rw [if_neg ej]; exact ⟨k', hk, rfl⟩
    · cases e

theorem Inv.same {s s' : St α} {G pend} (h : Inv s G pend) (hs : Same s s')
    (hsub : ∀ l b, G l = some b → s'.target l = some b) : Inv s' G pend := by
  refine ⟨hsub, ?_, ?_, ?_, ?_, ?_, ?_⟩
  · intro b k hb
    obtain ⟨k', e1, e2⟩ := hs.some hb
    rw [e2, hs.locs]; exact h.count b k' e1
  · intro l b hl; rw [hs.isSome]; exact h.live l b hl
  · intro b hb; rw [hs.isSome]; exact h.plive b hb
  · rw [hs.2.1, hs.2.2.1]; exact h.small
  · rw [hs.2.2.2]; exact h.once
  · intro b
    rw [hs.2.2.2, hs.2.1, h.dead b]
    have := hs.isSome b
    constructor
    · rintro ⟨h1, h2⟩; exact ⟨h1, by rw [h2] at this; simpa using this⟩
    · rintro ⟨h1, h2⟩; exact ⟨h1, by rw [h2] at this; simpa using this.symm⟩

/-- A pending reference is stored in a handle that `G` does not know of. -/
theorem Inv.put {s s' : St α} {G pend} {b : Nat} (h : Inv s G (b :: pend)) {l : Loc} (hs : Same s s')
    (hl : l ∈ s.locs) (hg : G l = none) (ht : ∀ l', s'.target l' = upd s.target l (some b) l') :
    Inv s' (upd G l (some b)) pend := by
  refine ⟨?_, ?_, ?_, ?_, ?_, ?_, ?_⟩
  · intro l' x hx
    rw [ht]
    by_cases e : l' = l
    · subst e; rw [upd_same] at hx ⊢; exact hx
    · rw [upd_other _ _ e] at hx ⊢; exact h.sub l' x hx
  · intro x k hx
    obtain ⟨k', e1, e2⟩ := hs.some hx
    rw [e2, hs.locs, h.count x k' e1]
    have := cnt_upd G (some b) x (locs_nodup s) hl
    rw [hg, if_neg (by simp : ¬ (none : Option Nat) = some x)] at this
    rw [List.count_cons]
    by_cases e : b = x
    · subst e; simp at this ⊢; omega
    · simp [e] at this ⊢; omega
  · intro l' x hx
    rw [hs.isSome]
    by_cases e : l' = l
    · subst e; rw [upd_same] at hx; injection hx with hx; subst hx
      exact h.plive b (by simp)
    · rw [upd_other _ _ e] at hx; exact h.live l' x hx
  · intro x hx; rw [hs.isSome]; exact h.plive x (List.mem_cons_of_mem _ hx)
  · rw [hs.2.1, hs.2.2.1]; have := h.small; simp only [List.length_cons] at this; omega
  · rw [hs.2.2.2]; exact h.once
  · have : Inv s' (fun _ => none) (b :: pend) → _ := fun h' => h'.dead
    intro x
    rw [hs.2.2.2, hs.2.1, h.dead x]
    have := hs.isSome x
    constructor
    · rintro ⟨h1, h2⟩; exact ⟨h1, by rw [h2] at this; simpa using this⟩
    · rintro ⟨h1, h2⟩; exact ⟨h1, by rw [h2] at this; simpa using this.symm⟩

/-! ### New variables -/

theorem declare_target (s : St α) (h : Option Nat) (l : Loc) :
    (s.declare h).target l = upd s.target (.var s.vars.length) h l := by
  cases l with
  | var j =>
    by_cases e : j = s.vars.length
    · subst e; rw [upd_same]; simp [St.target, St.declare]
    · rw [upd_other _ _ (by simpa using e)]
      simp only [St.target, St.declare]
      rcases Nat.lt_or_ge j s.vars.length with h1 | h1
      · rw [List.getElem?_append_left h1]
      · rw [List.getElem?_eq_none (by simp; omega), List.getElem?_eq_none h1]
  | fld b => rw [upd_other _ _ (by simp)]; rfl

theorem declare_cnt (s : St α) (h : Option Nat) (G : Loc → Option Nat) (b : Nat) :
    cnt (s.declare h).locs G b = cnt s.locs G b + (if G (.var s.vars.length) = some b then 1 else 0) := by
  unfold cnt St.locs St.declare
  simp only [List.length_append, List.length_cons, List.length_nil, List.range_succ, List.map_append,
    List.countP_append, List.map_cons, List.map_nil, List.countP_cons, List.countP_nil,
    decide_eq_true_eq]
  omega

theorem target_out (s : St α) : s.target (.var s.vars.length) = none := by simp [St.target]

theorem Inv.declare {s : St α} {G pend} {pend' : List Nat} {h : Option Nat} (hi : Inv s G pend)
    (hp : ∀ x, pend.count x = pend'.count x + (if h = some x then 1 else 0))
    (hsm : s.vars.length + s.blks.length + 1 + pend'.length < 2 ^ 64) :
    Inv (s.declare h) (upd G (.var s.vars.length) h) pend' := by
  have hout : G (.var s.vars.length) = none := by
    cases e : G (.var s.vars.length) with
    | none => rfl
    | some b => have := hi.sub _ _ e; rw [target_out] at this; cases this
  have hmem : ∀ x, 0 < pend'.count x ∨ h = some x → x ∈ pend := by
    intro x hx
    apply List.count_pos_iff.mp
    rw [hp x]
    rcases hx with hx | hx
    · omega
    · rw [if_pos hx]; omega
  refine ⟨?_, ?_, ?_, ?_, ?_, hi.once, hi.dead⟩
  · intro l x hx
    rw [declare_target]
    by_cases e : l = .var s.vars.length
    · subst e; rw [upd_same] at hx ⊢; exact hx
    · rw [upd_other _ _ e] at hx ⊢; exact hi.sub l x hx
  · intro x k hx
    rw [declare_cnt, upd_same, hi.count x k hx, hp x]
    have : cnt s.locs (upd G (.var s.vars.length) h) x = cnt s.locs G x :=
      cnt_congr (fun l hl => upd_other _ _ (by rintro rfl; rw [mem_locs_var] at hl; omega)) x
    rw [this]; omega
  · intro l x hx
    by_cases e : l = .var s.vars.length
    · subst e; rw [upd_same] at hx
      exact hi.plive x (hmem x (.inr hx))
    · rw [upd_other _ _ e] at hx; exact hi.live l x hx
  · intro x hx
    exact hi.plive x (hmem x (.inl (List.count_pos_iff.mpr hx)))
  · simp only [St.declare, List.length_append, List.length_cons, List.length_nil]; omega

/-! ### Dropping a handle -/

theorem reach_live {s : St α} (hg : Good s) {l : Loc} {x : Nat} (h : Reach s l x) : (s.blk x).isSome := by
  cases h with
  | var _ h => exact hg.live _ _ h
  | fld _ _ h => exact hg.live _ _ h

theorem drop_spec {s : St α} (hg : Good s) (hs : s.vars.length + s.blks.length + 1 < 2 ^ 64) {l : Loc}
    {h : Option Nat} (hl : s.get l = .ok h) (hr : ∀ c, l = .fld c → Reach s l c) :
    ∃ s', drop s l = .ok s' ∧ Good s' ∧ s'.vars.length = s.vars.length ∧
      s'.blks.length = s.blks.length ∧ s'.get l = .ok none ∧
      (∀ v, Loc.var v ≠ l → s'.vars[v]? = s.vars[v]?) ∧
      (∀ x, Reach s l x → (s'.blk x).isSome) ∧
      (∀ x k', s'.blk x = some k' → ∃ k, s.blk x = some k ∧ k'.val = k.val) ∧
      (∀ l', l' ≠ l → s'.target l' = s.target l' ∨ ∃ x, l' = .fld x ∧ s'.blk x = none) := by
  unfold drop
  rw [hl, rc_ok_bind]
  cases h with
  | none =>
    exact ⟨s, rfl, hg, rfl, rfl, hl, fun _ _ => rfl, fun x hx => reach_live hg hx,
      fun x k hk => ⟨k, hk, rfl⟩, fun _ _ => .inl rfl⟩
  | some b =>
    simp only
    have ht := get_target hl
    have hi := (hg.inv (by omega)).take (l := l) ht (by simpa using hs)
    obtain ⟨s1, G1, f1, f2, f3, f4, f5, f6, f7, f8⟩ := release_inv (s.blks.length + 1) s
      (upd s.target l none) b [] (Reach s l) hi
      (fun x k hx hr => absurd hr (hg.pos hx))
      (by
        intro x k hx _
        by_cases e : Loc.fld x = l
        · right; rw [← e]; exact e ▸ hr x e.symm
        · left; rw [upd_other _ _ e, target_fld, hx]; rfl)
      (by
        intro x hx
        refine ⟨reach_live hg hx, ?_⟩
        cases hx with
        | var hne h => exact ⟨_, by rw [upd_other _ _ hne]; exact h, .inl ⟨_, rfl⟩⟩
        | fld hy hne h => exact ⟨_, by rw [upd_other _ _ hne]; exact h, .inr ⟨_, rfl, hy⟩⟩)
      (by have := alive_le s; omega)
    rw [f1, rc_ok_bind]
    obtain ⟨h1, hg1⟩ : ∃ h1, s1.get l = .ok h1 := by
      cases l with
      | var i =>
        unfold St.get at hl ⊢
        simp only [f3]
        exact ⟨_, hl⟩
      | fld c =>
        obtain ⟨k, hk⟩ := Option.isSome_iff_exists.mp (f8 c (hr c rfl))
        exact ⟨_, get_fld hk⟩
    obtain ⟨s2, g1, g2, g3, g4, g5, g6, g7⟩ := set_spec hg1 none
    have hG1l : G1 l = none := by
      rcases f5 l with h | h
      · rw [h, upd_same]
      · exact h.1
    have htar : ∀ l', s2.target l' = G1 l' := by
      intro l'
      rw [g3]
      by_cases e : l' = l
      · subst e; rw [upd_same, hG1l]
      · rw [upd_other _ _ e]
        rcases f5 l' with h | ⟨h, x, rfl, hx⟩
        · rw [h, upd_other _ _ e]
          cases l' with
          | var i => simp only [St.target, f3]
          | fld x =>
            cases hx : s1.blk x with
            | none =>
              -- freed: `G1` is none there as well
              have hd : G1 (.fld x) = none := by
                cases hc : G1 (.fld x) with
                | none => rfl
                | some c => have := f2.sub _ _ hc; rw [target_fld, hx] at this; cases this
              rw [h, upd_other _ _ e] at hd
              rw [target_fld, hx, hd]; rfl
            | some k' =>
              obtain ⟨k, a1, a2, a3, a4⟩ := f6 x k' hx
              rw [target_fld, target_fld, hx, a1]
              exact a3
        · rw [h, target_fld, hx]; rfl
    refine ⟨s2, g1, ?_, by rw [g2.2.2.1, f3], by rw [g2.2.1, f4], g4, ?_, ?_, ?_, ?_⟩
    · refine Inv.good (f2.same g2 (fun l' b hb => by rw [htar]; exact hb)) htar ?_
      intro x k hx hz
      obtain ⟨k1, a1, a2⟩ := g2.some hx
      obtain ⟨k0, b1, _, _, b4⟩ := f6 x k1 a1
      exact hg.pos b1 (b4 (by omega))
    · intro v hv; rw [g6 v hv, f3]
    · intro x hx; rw [g2.isSome]; exact f8 x hx
    · intro x k2 hx
      obtain ⟨k1, a1, _⟩ := g2.some hx
      obtain ⟨k2', a3, a4⟩ := g7 x k1 a1
      rw [hx] at a3; injection a3 with a3; subst a3
      obtain ⟨k0, b1, b2, _, _⟩ := f6 x k1 a1
      exact ⟨k0, b1, by rw [a4, b2]⟩
    · intro l' hne
      rw [htar]
      rcases f5 l' with h | ⟨h, x, hx, hx2⟩
      · left; rw [h, upd_other _ _ hne]
      · right
        refine ⟨x, hx, ?_⟩
        have := g2.isSome x
        rw [hx2] at this
        simpa using this

/-- A path leads to a variable, or to a block that can be reached without the handle found. -/
theorem locate_reach {s : St α} {v : Nat} {l : Loc} : ∀ n {l'}, locate s v n = .ok l' →
    (∃ h, s.get l' = .ok h) ∧ (∀ c, l = .fld c → ∀ x, l' = .fld x → Reach s l x ∨ Reach s l c)
  | 0, l', h => by
    unfold locate at h
    split at h
    · rename_i h0 e
      injection h with h; subst h
      exact ⟨⟨h0, get_var e⟩, fun _ _ x hx => by cases hx⟩
    · cases h
  | n + 1, l', h => by
    unfold locate at h
    cases hl : locate s v n with
    | error e => rw [hl] at h; cases h
    | ok l1 =>
      rw [hl, rc_ok_bind] at h
      obtain ⟨⟨h1, e1⟩, ih⟩ := locate_reach (l := l) n hl
      rw [e1, rc_ok_bind] at h
      cases h1 with
      | none => cases h
      | some b =>
        simp only at h
        cases hb : s.blk b with
        | none => rw [hb] at h; cases h
        | some k =>
          rw [hb] at h
          injection h with h
          subst h
          refine ⟨⟨_, get_fld hb⟩, fun c hc x hx => ?_⟩
          injection hx with hx
          subst hx
          have ht := get_target e1
          cases l1 with
          | var i => exact .inl (.var (by rw [hc]; simp) ht)
          | fld y =>
            by_cases e : Loc.fld y = l
            · right
              have : c = y := by rw [hc] at e; injection e with e; exact e.symm
              subst this
              rcases ih c hc c rfl with h | h <;> exact h
            · rcases ih c hc y rfl with h | h
              · exact .inl (.fld h e ht)
              · exact .inr h

theorem Leads.det {s : St α} {v n : Nat} {l l' : Loc} (h : Leads s v n l) (h' : Leads s v n l') : l = l' := by
  induction h generalizing l' with
  | var => cases h'; rfl
  | fld _ e ih =>
    cases h' with
    | fld h2 e2 =>
      have := ih h2
      subst this
      rw [e] at e2; injection e2 with e2; rw [e2]

/-- A path that leads somewhere meets no null handle. -/
theorem Leads.notNull {s : St α} {v n : Nat} {l : Loc} (h : Leads s v n l) : ¬ NullOn s v n := by
  induction h with
  | var => rintro ⟨m, _, h, _⟩; omega
  | @fld n l b hl e ih =>
    rintro ⟨m, l', hm, h1, h2⟩
    by_cases hmn : m = n
    · subst hmn
      rw [h1.det hl, e] at h2; cases h2
    · exact ih ⟨m, l', by omega, h1, h2⟩

/-- Paths can be followed, unless a handle on the way is null. -/
theorem locate_spec {s : St α} (hg : Good s) {v : Nat} (hv : s.Has v) : ∀ n,
    locate s v n = .error .die ∧ NullOn s v n ∨ ∃ l, locate s v n = .ok l ∧ Leads s v n l
  | 0 => by
    obtain ⟨h, e⟩ := hv
    right; exact ⟨.var v, by simp [locate, e], .var⟩
  | n + 1 => by
    unfold locate
    rcases locate_spec hg hv n with ⟨h, m, l, hm, hn⟩ | ⟨l, h, hL⟩
    · left; rw [h]; exact ⟨rfl, m, l, by omega, hn⟩
    · obtain ⟨⟨h1, e1⟩, _⟩ := locate_reach (l := l) n h
      rw [h, rc_ok_bind, e1, rc_ok_bind]
      cases h1 with
      | none => left; exact ⟨rfl, n, l, by omega, hL, get_target e1⟩
      | some b =>
        right
        obtain ⟨k, hk⟩ := Option.isSome_iff_exists.mp (hg.live _ _ (get_target e1))
        exact ⟨.fld b, by simp only [hk], .fld hL (get_target e1)⟩

theorem locate_self {s : St α} {v n : Nat} {l : Loc} (h : locate s v n = .ok l) :
    ∀ c, l = .fld c → Reach s l c := by
  intro c hc
  rcases (locate_reach (l := l) n h).2 c hc c hc with h | h <;> exact h

end Rc
end Rpp
