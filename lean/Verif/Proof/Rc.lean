import Verif.Spec.Rc
import Verif.Proof.Mem

/-! Reference counting. -/

namespace Rpp
namespace Rc
variable {α : Type}

theorem wsub_one {n : Nat} (h0 : 0 < n) (h : n < 2 ^ 64) : wsub n 1 = n - 1 := by
  unfold wsub; omega

theorem wadd_one {n : Nat} (h : n + 1 < 2 ^ 64) : wadd n 1 = n + 1 := by
  unfold wadd; omega

/-! ### Counting -/

/-- How often `G` gives `b` on `L`. -/
def cnt (L : List Loc) (G : Loc → Option Nat) (b : Nat) : Nat := L.countP (fun l => G l = some b)

theorem upd_same (G : Loc → Option Nat) (l : Loc) (x : Option Nat) : upd G l x l = x := by simp [upd]
theorem upd_other (G : Loc → Option Nat) {l l' : Loc} (x : Option Nat) (h : l' ≠ l) :
    upd G l x l' = G l' := by simp [upd, h]

theorem cnt_congr {L : List Loc} {G G' : Loc → Option Nat} (h : ∀ l ∈ L, G l = G' l) (b : Nat) :
    cnt L G b = cnt L G' b := by
  unfold cnt
  apply List.countP_congr
  intro l hl
  rw [h l hl]

theorem cnt_upd {L : List Loc} (G : Loc → Option Nat) {l : Loc} (x : Option Nat) (b : Nat)
    (hn : L.Nodup) (hl : l ∈ L) :
    cnt L (upd G l x) b + (if G l = some b then 1 else 0) = cnt L G b + (if x = some b then 1 else 0) := by
  induction L with
  | nil => cases hl
  | cons a L ih =>
    rw [List.nodup_cons] at hn
    unfold cnt at *
    rw [List.countP_cons, List.countP_cons]
    rcases List.mem_cons.mp hl with rfl | hl
    · have : List.countP (fun l' => decide (upd G l x l' = some b)) L =
          List.countP (fun l' => decide (G l' = some b)) L :=
        cnt_congr (G := upd G l x) (G' := G) (fun l' hl' => upd_other G x (fun e => hn.1 (e ▸ hl'))) b
      rw [this, upd_same]
      simp only [decide_eq_true_eq]
      omega
    · have h1 := ih hn.2 hl
      have : a ≠ l := fun e => hn.1 (e ▸ hl)
      rw [upd_other G x this]
      omega

theorem cnt_pos {L : List Loc} {G : Loc → Option Nat} {l : Loc} {b : Nat} (hl : l ∈ L) (h : G l = some b) :
    0 < cnt L G b := List.countP_pos_iff.mpr ⟨l, hl, by simpa using h⟩

theorem exists_of_cnt_pos {L : List Loc} {G : Loc → Option Nat} {b : Nat} (h : 0 < cnt L G b) :
    ∃ l ∈ L, G l = some b := by
  obtain ⟨l, h1, h2⟩ := List.countP_pos_iff.mp h
  exact ⟨l, h1, by simpa using h2⟩

theorem cnt_le (L : List Loc) (G : Loc → Option Nat) (b : Nat) : cnt L G b ≤ L.length :=
  List.countP_le_length

theorem locs_nodup (s : St α) : s.locs.Nodup := by
  unfold St.locs
  rw [List.nodup_append]
  refine ⟨?_, ?_, ?_⟩
  · exact List.Pairwise.map _ (fun a b h e => h (Loc.var.inj e)) List.nodup_range
  · exact List.Pairwise.map _ (fun a b h e => h (Loc.fld.inj e)) List.nodup_range
  · intro a ha b hb
    simp only [List.mem_map] at ha hb
    obtain ⟨_, _, rfl⟩ := ha
    obtain ⟨_, _, rfl⟩ := hb
    simp

theorem locs_length (s : St α) : s.locs.length = s.vars.length + s.blks.length := by
  simp [St.locs]

theorem mem_locs_var {s : St α} {i : Nat} : Loc.var i ∈ s.locs ↔ i < s.vars.length := by
  simp [St.locs]

theorem mem_locs_fld {s : St α} {b : Nat} : Loc.fld b ∈ s.locs ↔ b < s.blks.length := by
  simp [St.locs]

theorem blk_lt {s : St α} {b : Nat} {k : Blk α} (h : s.blk b = some k) : b < s.blks.length := by
  unfold St.blk at h
  rcases Nat.lt_or_ge b s.blks.length with h1 | h1
  · exact h1
  · rw [List.getElem?_eq_none h1] at h; cases h

theorem blk_getElem {s : St α} {b : Nat} {k : Blk α} (h : s.blk b = some k) : s.blks[b]? = some (some k) := by
  unfold St.blk at h
  cases e : s.blks[b]? with
  | none => rw [e] at h; cases h
  | some o => rw [e] at h; simp at h; rw [h]

theorem target_fld (s : St α) (b : Nat) : s.target (.fld b) = (s.blk b).bind Blk.next := rfl

theorem target_mem {s : St α} {l : Loc} {b : Nat} (h : s.target l = some b) : l ∈ s.locs := by
  cases l with
  | var i =>
    rw [mem_locs_var]
    rcases Nat.lt_or_ge i s.vars.length with h1 | h1
    · exact h1
    · simp [St.target, List.getElem?_eq_none h1] at h
  | fld x =>
    rw [mem_locs_fld]
    rw [target_fld] at h
    cases e : s.blk x with
    | none => rw [e] at h; cases h
    | some k => exact blk_lt e

theorem setBlk_blk {s : St α} {b : Nat} (k : Option (Blk α)) (x : Nat) (hb : b < s.blks.length) :
    (s.setBlk b k).blk x = if x = b then k else s.blk x := by
  unfold St.blk St.setBlk
  simp only
  rw [List.getElem?_set]
  by_cases h : b = x
  · subst h; simp [hb]
  · rw [if_neg h, if_neg (fun e => h e.symm)]

theorem setBlk_locs (s : St α) (b : Nat) (k : Option (Blk α)) : (s.setBlk b k).locs = s.locs := by
  simp [St.locs, St.setBlk]

theorem setBlk_target_var (s : St α) (b : Nat) (k : Option (Blk α)) (i : Nat) :
    (s.setBlk b k).target (.var i) = s.target (.var i) := rfl

/-! ### The invariant -/

/-- The counts are right for the handles that `G` knows of (a part of those that exist), and the
references `pend` that are not in a handle at the moment. -/
structure Inv (s : St α) (G : Loc → Option Nat) (pend : List Nat) : Prop where
  sub : ∀ l b, G l = some b → s.target l = some b
  count : ∀ b k, s.blk b = some k → k.refs = cnt s.locs G b + pend.count b
  live : ∀ l b, G l = some b → (s.blk b).isSome
  plive : ∀ b ∈ pend, (s.blk b).isSome
  small : s.vars.length + s.blks.length + pend.length < 2 ^ 64
  once : s.dead.Nodup
  dead : ∀ b, b ∈ s.dead ↔ b < s.blks.length ∧ s.blk b = none

theorem Inv.refs_lt {s : St α} {G pend} (h : Inv s G pend) {b k} (hb : s.blk b = some k) :
    k.refs < 2 ^ 64 := by
  have h1 := h.count b k hb
  have h2 := cnt_le s.locs G b
  have h3 := List.count_le_length (a := b) (l := pend)
  have h4 := h.small
  rw [locs_length] at h2
  omega

theorem Inv.mem {s : St α} {G pend} (h : Inv s G pend) {l b} (hl : G l = some b) : l ∈ s.locs :=
  target_mem (h.sub l b hl)

/-- Change the count of a block. -/
theorem Inv.refs {s : St α} {G pend pend'} (h : Inv s G pend) {b : Nat} {k : Blk α} (hb : s.blk b = some k)
    {r : Nat} (hr : r = cnt s.locs G b + pend'.count b) (hp : ∀ x, x ≠ b → pend'.count x = pend.count x)
    (hlen : s.vars.length + s.blks.length + pend'.length < 2 ^ 64) :
    Inv (s.setBlk b (some { k with refs := r })) G pend' := by
  have hlt := blk_lt hb
  refine ⟨?_, ?_, ?_, ?_, ?_, h.once, ?_⟩
  · intro l x hl
    have := h.sub l x hl
    cases l with
    | var i => exact this
    | fld y =>
      rw [target_fld] at this ⊢
      rw [setBlk_blk _ _ hlt]
      by_cases e : y = b
      · subst e; rw [hb] at this; rw [if_pos rfl]; exact this
      · rw [if_neg e]; exact this
  · intro x k' hx
    rw [setBlk_blk _ _ hlt] at hx
    rw [setBlk_locs]
    by_cases e : x = b
    · subst e; rw [if_pos rfl] at hx; injection hx with hx; subst hx; exact hr
    · rw [if_neg e] at hx; rw [h.count x k' hx, hp x e]
  · intro l x hl
    have := h.live l x hl
    rw [setBlk_blk _ _ hlt]
    split
    · rfl
    · exact this
  · intro x hx
    rw [setBlk_blk _ _ hlt]
    split
    · rfl
    · rename_i e
      have : 0 < pend'.count x := List.count_pos_iff.mpr hx
      rw [hp x e] at this
      exact h.plive x (List.count_pos_iff.mp this)
  · simpa [St.setBlk] using hlen
  · intro x
    have := h.dead x
    rw [setBlk_blk _ _ hlt]
    simp only [St.setBlk, List.length_set]
    rw [this]
    by_cases e : x = b
    · subst e; simp [hb]
    · simp [e]

/-- A block that nothing points to is freed. -/
theorem Inv.free {s : St α} {G pend} (h : Inv s G pend) {b : Nat} {k : Blk α} (hb : s.blk b = some k)
    (hr : k.refs = 0) (hg : G (.fld b) = none) :
    ∃ s', s.free b = .ok s' ∧ s' = { s.setBlk b none with dead := s.dead ++ [b] } ∧ Inv s' G pend := by
  have hlt := blk_lt hb
  have hc := h.count b k hb
  refine ⟨{ s.setBlk b none with dead := s.dead ++ [b] }, ?_, rfl, ?_⟩
  · unfold St.free; rw [hb]
  have hblk : ∀ x, ({ s.setBlk b none with dead := s.dead ++ [b] } : St α).blk x =
      if x = b then none else s.blk x := fun x => setBlk_blk none x hlt
  have hnb : ∀ l, G l ≠ some b := fun l hl => by
    have := cnt_pos (h.mem hl) hl; omega
  have hdb : b ∉ s.dead := fun hd => by
    have := (h.dead b).mp hd; rw [hb] at this; simp at this
  refine ⟨?_, ?_, ?_, ?_, ?_, ?_, ?_⟩
  · intro l x hl
    have := h.sub l x hl
    cases l with
    | var i => exact this
    | fld y =>
      have e : y ≠ b := by rintro rfl; rw [hg] at hl; cases hl
      rw [target_fld] at this ⊢
      simp only [hblk, if_neg e]
      exact this
  · intro x k' hx
    rw [hblk] at hx
    split at hx
    · cases hx
    · have := h.count x k' hx
      rw [← setBlk_locs s b none] at this
      exact this
  · intro l x hl
    have e : x ≠ b := by rintro rfl; exact hnb l hl
    rw [hblk, if_neg e]
    exact h.live l x hl
  · intro x hx
    have e : x ≠ b := by
      rintro rfl
      have : 0 < pend.count x := List.count_pos_iff.mpr hx
      omega
    rw [hblk, if_neg e]
    exact h.plive x hx
  · simpa [St.setBlk] using h.small
  · simp only [List.nodup_append, h.once, true_and]
    refine ⟨by simp, ?_⟩
    intro x hx y hy e
    simp at hy; subst hy; subst e; exact hdb hx
  · intro x
    rw [hblk]
    simp only [St.setBlk, List.length_set, List.mem_append, List.mem_singleton]
    by_cases e : x = b
    · subst e; simp [hlt]
    · simp [e, h.dead x]

/-- A handle is taken out of consideration; its reference becomes pending. -/
theorem Inv.take {s : St α} {G pend} (h : Inv s G pend) {l : Loc} {b : Nat} (hl : G l = some b)
    (hlen : s.vars.length + s.blks.length + pend.length + 1 < 2 ^ 64) :
    Inv s (upd G l none) (b :: pend) := by
  refine ⟨?_, ?_, ?_, ?_, ?_, h.once, h.dead⟩
  · intro l' x hx
    by_cases e : l' = l
    · subst e; rw [upd_same] at hx; cases hx
    · rw [upd_other _ _ e] at hx; exact h.sub l' x hx
  · intro x k hx
    rw [h.count x k hx]
    have := cnt_upd G none x (locs_nodup s) (h.mem hl)
    rw [hl, if_neg (by simp : ¬ (none : Option Nat) = some x)] at this
    rw [List.count_cons]
    by_cases e : b = x
    · subst e; simp at this ⊢; omega
    · simp [e] at this ⊢; omega
  · intro l' x hx
    by_cases e : l' = l
    · subst e; rw [upd_same] at hx; cases hx
    · rw [upd_other _ _ e] at hx; exact h.live l' x hx
  · intro x hx
    rcases List.mem_cons.mp hx with rfl | hx
    · exact h.live l x hl
    · exact h.plive x hx
  · simp only [List.length_cons]; omega

/-- Number of blocks not being destroyed. -/
def alive (s : St α) : Nat := s.blks.countP (fun o => o.any (fun k => k.refs ≠ 0))

theorem alive_le (s : St α) : alive s ≤ s.blks.length := List.countP_le_length

theorem alive_drop {s : St α} {b : Nat} {k k' : Blk α} (hb : s.blk b = some k) (h1 : k.refs ≠ 0)
    (h2 : k'.refs = 0) : alive (s.setBlk b (some k')) + 1 = alive s := by
  have hlt := blk_lt hb
  have hg := blk_getElem hb
  have hg' : s.blks[b] = some k := by
    rw [List.getElem?_eq_getElem hlt] at hg; injection hg
  unfold alive St.setBlk
  simp only
  rw [List.countP_set hlt, hg']
  have : 0 < s.blks.countP (fun o => o.any (fun k => k.refs ≠ 0)) :=
    List.countP_pos_iff.mpr ⟨some k, hg' ▸ List.getElem_mem hlt, by simpa using h1⟩
  rw [if_pos (by simpa using h1), if_neg (by simpa using h2)]
  omega

theorem release_inv : ∀ (fuel : Nat) (s : St α) (G : Loc → Option Nat) (b : Nat) (pend : List Nat)
    (Keep : Nat → Prop), Inv s G (b :: pend) →
    (∀ x k, s.blk x = some k → k.refs = 0 → G (.fld x) = none) →
    (∀ x k, s.blk x = some k → k.refs ≠ 0 → G (.fld x) = k.next ∨ Keep x) →
    (∀ x, Keep x → (s.blk x).isSome ∧
      ∃ l, G l = some x ∧ ((∃ v, l = .var v) ∨ ∃ y, l = .fld y ∧ Keep y)) →
    alive s < fuel →
    ∃ s' G', release fuel s b = .ok s' ∧ Inv s' G' pend ∧ s'.vars = s.vars ∧
      s'.blks.length = s.blks.length ∧
      (∀ l, G' l = G l ∨ (G' l = none ∧ ∃ x, l = .fld x ∧ s'.blk x = none)) ∧
      (∀ x k', s'.blk x = some k' → ∃ k, s.blk x = some k ∧ k'.val = k.val ∧ k'.next = k.next ∧
        (k'.refs = 0 → k.refs = 0)) ∧
      (∀ x k, s.blk x = some k → k.refs = 0 → s'.blk x = some k) ∧
      (∀ x, Keep x → (s'.blk x).isSome) := by
  intro fuel
  induction fuel with
  | zero => intro s G b pend Keep _ _ _ _ hf; omega
  | succ fuel ih =>
    intro s G b pend Keep hi hz hnz hk hf
    obtain ⟨k, hb⟩ := Option.isSome_iff_exists.mp (hi.plive b (by simp))
    have hlt := blk_lt hb
    have hc := hi.count b k hb
    rw [List.count_cons_self] at hc
    have hpos : 0 < k.refs := by omega
    have hw := wsub_one hpos (hi.refs_lt hb)
    have hsm := hi.small
    simp only [List.length_cons] at hsm
    -- after the decrement
    have hi1 : Inv (s.setBlk b (some { k with refs := k.refs - 1 })) G pend :=
      hi.refs hb (by omega) (fun x hx => by rw [List.count_cons_of_ne (Ne.symm hx)]) (by omega)
    have hblk1 : ∀ x, (s.setBlk b (some { k with refs := k.refs - 1 })).blk x =
        if x = b then some { k with refs := k.refs - 1 } else s.blk x := fun x => setBlk_blk _ x hlt
    have hlive1 : ∀ x, (s.blk x).isSome → ((s.setBlk b (some { k with refs := k.refs - 1 })).blk x).isSome := by
      intro x hx; rw [hblk1]; split
      · rfl
      · exact hx
    unfold release
    simp only [hb, hw]
    by_cases h0 : k.refs - 1 = 0
    · rw [if_pos h0]
      have hcb : cnt s.locs G b = 0 := by omega
      have hnk : ¬ Keep b := fun hkb => by
        obtain ⟨_, l, hl, _⟩ := hk b hkb
        have := cnt_pos (hi.mem hl) hl
        omega
      have hgb : G (.fld b) = k.next := by
        rcases hnz b k hb (by omega) with h | h
        · exact h
        · exact absurd h hnk
      cases hn : k.next with
      | none =>
        simp only
        obtain ⟨s', e1, e2, e3⟩ := hi1.free (by rw [hblk1, if_pos rfl]) h0 (by rw [hgb, hn])
        have hblk' : ∀ x, s'.blk x = if x = b then none else s.blk x := by
          intro x
          rw [e2]
          refine (setBlk_blk (s := s.setBlk b (some { k with refs := k.refs - 1 })) none x
            (by simpa [St.setBlk] using hlt)).trans ?_
          split
          · rfl
          · rw [hblk1]; simp [*]
        refine ⟨s', G, by rw [hn] at e1; exact e1, e3, by rw [e2]; rfl, by rw [e2]; simp [St.setBlk], fun l => .inl rfl, ?_, ?_, ?_⟩
        · intro x k' hx
          rw [hblk'] at hx
          split at hx
          · cases hx
          · exact ⟨k', hx, rfl, rfl, id⟩
        · intro x k' hx hr
          rw [hblk', if_neg (by rintro rfl; rw [hb] at hx; injection hx with hx; subst hx; omega)]
          exact hx
        · intro x hx
          rw [hblk', if_neg (by rintro rfl; exact hnk hx)]
          exact (hk x hx).1
      | some c =>
        simp only
        have hi2 := hi1.take (l := .fld b) (b := c) (by rw [hgb, hn]) (by
          simp only [St.setBlk, List.length_set]; omega)
        obtain ⟨s2, G2, f1, f2, f3, f4, f5, f6, f7, f8⟩ := ih
          (s.setBlk b (some { k with refs := k.refs - 1 })) (upd G (.fld b) none) c pend Keep hi2
          (by
            intro x k' hx hr
            by_cases e : x = b
            · subst e; exact upd_same _ _ _
            · rw [upd_other _ _ (by simpa using e)]
              rw [hblk1, if_neg e] at hx
              exact hz x k' hx hr)
          (by
            intro x k' hx hr
            by_cases e : x = b
            · subst e; rw [hblk1, if_pos rfl] at hx; injection hx with hx; subst hx; exact absurd h0 hr
            · rw [upd_other _ _ (by simpa using e)]
              rw [hblk1, if_neg e] at hx
              exact hnz x k' hx hr)
          (by
            intro x hx
            obtain ⟨g1, l, g2, g3⟩ := hk x hx
            refine ⟨hlive1 x g1, l, ?_, g3⟩
            rw [upd_other _ _ ?_]
            · exact g2
            · rintro rfl
              rcases g3 with ⟨v, hv⟩ | ⟨y, hy, hky⟩
              · cases hv
              · injection hy with hy; subst hy; exact hnk hky)
          (by
            have := alive_drop (k' := { k with refs := k.refs - 1 }) hb (by omega) h0
            omega)
        have hb2 : s2.blk b = some { k with refs := k.refs - 1 } :=
          f7 b _ (by rw [hblk1, if_pos rfl]) h0
        have hlt2 := blk_lt hb2
        have hG2b : G2 (.fld b) = none := by
          rcases f5 (.fld b) with h | h
          · rw [h, upd_same]
          · exact h.1
        rw [hn] at f1
        rw [f1]
        simp only [bind, Except.bind, St.set, hb2]
        -- `data_ = null` in the block
        have hi3 : Inv (s2.setBlk b (some ⟨k.refs - 1, k.val, none⟩)) G2 pend := by
          have hblk3 : ∀ x, (s2.setBlk b (some (Blk.mk (k.refs - 1) k.val none))).blk x =
            if x = b then some (Blk.mk (k.refs - 1) k.val none) else s2.blk x := fun x => setBlk_blk _ x hlt2
          refine ⟨?_, ?_, ?_, ?_, ?_, f2.once, ?_⟩
          · intro l x hl
            have := f2.sub l x hl
            cases l with
            | var i => exact this
            | fld y =>
              have e : y ≠ b := by rintro rfl; rw [hG2b] at hl; cases hl
              rw [target_fld] at this ⊢
              rw [hblk3, if_neg e]
              exact this
          · intro x k' hx
            rw [setBlk_locs]
            rw [hblk3] at hx
            split at hx
            · rename_i e
              have hx' := Option.some.inj hx
              have hcc := f2.count b _ hb2
              rw [← hx', e]
              exact hcc
            · exact f2.count x k' hx
          · intro l x hl
            have := f2.live l x hl
            rw [hblk3]; split
            · rfl
            · exact this
          · intro x hx
            have := f2.plive x hx
            rw [hblk3]; split
            · rfl
            · exact this
          · simpa [St.setBlk] using f2.small
          · intro x
            rw [hblk3]
            have := f2.dead x
            simp only [St.setBlk, List.length_set]
            rw [this]
            by_cases e : x = b
            · subst e; simp [hb2]
            · simp [e]
        obtain ⟨s', e1, e2, e3⟩ := hi3.free (b := b)
          (by rw [setBlk_blk _ _ hlt2, if_pos rfl]) h0 hG2b
        have hblk' : ∀ x, s'.blk x = if x = b then none else s2.blk x := by
          intro x
          rw [e2]
          refine (setBlk_blk (s := s2.setBlk b (some (Blk.mk (k.refs - 1) k.val none))) none x
            (by simpa [St.setBlk] using hlt2)).trans ?_
          split
          · rfl
          · rw [setBlk_blk _ _ hlt2]; simp [*]
        refine ⟨s', G2, e1, e3, by rw [e2]; exact f3, by rw [e2]; simpa [St.setBlk] using f4, ?_, ?_, ?_, ?_⟩
        · intro l
          by_cases el : l = .fld b
          · subst el
            exact .inr ⟨hG2b, b, rfl, by rw [hblk', if_pos rfl]⟩
          · rcases f5 l with h | ⟨h, x, hx, hx2⟩
            · left; rw [h, upd_other _ _ el]
            · right
              refine ⟨h, x, hx, ?_⟩
              rw [hblk']; split
              · rfl
              · exact hx2
        · intro x k' hx
          rw [hblk'] at hx
          split at hx
          · cases hx
          · rename_i e
            obtain ⟨k2, g1, g2⟩ := f6 x k' hx
            rw [hblk1, if_neg e] at g1
            exact ⟨k2, g1, g2⟩
        · intro x k' hx hr
          have e : x ≠ b := by rintro rfl; rw [hb] at hx; injection hx with hx; subst hx; omega
          rw [hblk', if_neg e]
          exact f7 x k' (by rw [hblk1, if_neg e]; exact hx) hr
        · intro x hx
          rw [hblk', if_neg (by rintro rfl; exact hnk hx)]
          exact f8 x hx
    · rw [if_neg h0]
      refine ⟨_, G, rfl, hi1, rfl, by simp [St.setBlk], fun l => .inl rfl, ?_, ?_, ?_⟩
      · intro x k' hx
        rw [hblk1] at hx
        split at hx
        · rename_i e
          injection hx with hx; subst hx; subst e
          exact ⟨k, hb, rfl, rfl, fun h => absurd h h0⟩
        · exact ⟨k', hx, rfl, rfl, id⟩
      · intro x k' hx hr
        rw [hblk1, if_neg (by rintro rfl; rw [hb] at hx; injection hx with hx; subst hx; omega)]
        exact hx
      · intro x hx
        exact hlive1 x (hk x hx).1

end Rc
end Rpp
