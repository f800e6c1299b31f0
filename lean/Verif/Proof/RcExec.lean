import Verif.Proof.RcOps

/-! One operation keeps the counts right. -/

namespace Rpp
namespace Rc
variable {α : Type}

theorem refs_set {s : St α} {b : Nat} {k : Blk α} (hb : s.blk b = some k) (r : Nat) :
    (∀ l, (s.setBlk b (some { k with refs := r })).target l = s.target l) ∧
    (∀ x k', (s.setBlk b (some { k with refs := r })).blk x = some k' →
      ∃ k0, s.blk x = some k0 ∧ k'.val = k0.val ∧ (x ≠ b → k' = k0) ∧ (x = b → k'.refs = r)) := by
  have hlt := blk_lt hb
  constructor
  · intro l
    cases l with
    | var i => rfl
    | fld x =>
      rw [target_fld, target_fld, setBlk_blk _ _ hlt]
      split
      · rename_i e; subst e; rw [hb]; rfl
      · rfl
  · intro x k' hx
    rw [setBlk_blk _ _ hlt] at hx
    split at hx
    · rename_i e; subst e
      obtain rfl := Option.some.inj hx
      exact ⟨k, hb, rfl, fun h => absurd rfl h, fun _ => rfl⟩
    · rename_i e; exact ⟨k', hx, rfl, fun _ => rfl, fun h => absurd h e⟩

/-- Storing one more reference to `b` in a new variable. -/
theorem addref_spec {s : St α} (hg : Good s) (hs : s.vars.length + s.blks.length + 2 < 2 ^ 64) {b : Nat}
    {k : Blk α} (hb : s.blk b = some k) :
    Good ((s.setBlk b (some { k with refs := wadd k.refs 1 })).declare (some b)) ∧
    Effect s ((s.setBlk b (some { k with refs := wadd k.refs 1 })).declare (some b))
      (upd s.target (.var s.vars.length) (some b)) := by
  have hi := hg.inv (by omega)
  have hc := hi.count b k hb
  have hle := cnt_le s.locs s.target b
  rw [locs_length] at hle
  simp at hc
  rw [wadd_one (by omega)]
  obtain ⟨t1, t2⟩ := refs_set hb (k.refs + 1)
  have hi1 : Inv (s.setBlk b (some { k with refs := k.refs + 1 })) s.target [b] :=
    hi.refs hb (by simp; omega) (fun x hx => by simp [Ne.symm hx]) (by simp; omega)
  have hi2 := hi1.declare (h := some b) (pend' := []) (fun x => by simp [List.count_cons])
    (by simp [St.setBlk]; omega)
  have ht : ∀ l, ((s.setBlk b (some { k with refs := k.refs + 1 })).declare (some b)).target l =
      upd s.target (.var s.vars.length) (some b) l := by
    intro l
    rw [declare_target]
    unfold upd
    rw [t1]
    rfl
  refine ⟨hi2.good ht ?_, fun l => .inl (ht l), ?_⟩
  · intro x k' hx
    obtain ⟨k0, a1, _, a2, a3⟩ := t2 x k' hx
    by_cases e : x = b
    · rw [a3 e]; omega
    · rw [a2 e]; exact hg.pos a1
  · intro x k' _ hx
    obtain ⟨k0, a1, a2, _⟩ := t2 x k' hx
    exact ⟨k0, a1, a2⟩

theorem upd_comm_eq (G : Loc → Option Nat) {l l' : Loc} (x y : Option Nat) (h : l ≠ l') (m : Loc) :
    upd (upd G l x) l' y m = upd (upd G l' y) l x m := by
  unfold upd
  by_cases e1 : m = l <;> by_cases e2 : m = l' <;> simp [e1, e2, h, Ne.symm h]

theorem exec_spec {s : St α} (hg : Good s) (hs : s.vars.length + s.blks.length ≤ 2 ^ 63 + 1) (op : Op α)
    (hl : Legal s op) :
    exec s op = .error .die ∧ Stops s op ∨ ¬ Stops s op ∧ ∃ s', exec s op = .ok s' ∧ Good s' ∧
      s'.vars.length + s'.blks.length ≤ 2 ^ 63 + 1 ∧ ∃ G, after s op G ∧ Effect s s' G := by
  have hsm : s.vars.length + s.blks.length < 2 ^ 64 := by omega
  cases op with
  | null =>
    refine .inr ⟨fun h => h, ?_⟩
    have hlen : s.vars.length + s.blks.length < 2 ^ 63 := hl
    have hi := (hg.inv hsm).declare (h := none) (pend' := []) (by simp) (by simp; omega)
    refine ⟨_, rfl, hi.good (declare_target s none) (fun b k hb => hg.pos (s := s) hb),
      by simp [St.declare]; omega, _, rfl, fun l => .inl (declare_target s none l),
      fun x k _ hx => ⟨k, hx, rfl⟩⟩
  | make a =>
    refine .inr ⟨fun h => h, ?_⟩
    have hlen : s.vars.length + s.blks.length < 2 ^ 63 := hl
    have hblk : ∀ x, ({ s with blks := s.blks ++ [some (Blk.mk 1 a none)] } : St α).blk x =
        if x = s.blks.length then some ⟨1, a, none⟩ else s.blk x := by
      intro x
      unfold St.blk
      simp only
      by_cases e : x = s.blks.length
      · subst e; simp
      · rw [if_neg e]
        rcases Nat.lt_or_ge x s.blks.length with h1 | h1
        · rw [List.getElem?_append_left h1]
        · rw [List.getElem?_eq_none (by simp; omega), List.getElem?_eq_none h1]
    have hi := hg.inv hsm
    have hnew : s.blk s.blks.length = none := by simp [St.blk]
    have htar : ∀ l, ({ s with blks := s.blks ++ [some (Blk.mk 1 a none)] } : St α).target l = s.target l := by
      intro l
      cases l with
      | var i => rfl
      | fld x =>
        rw [target_fld, target_fld, hblk]
        split
        · rename_i e; subst e; rw [hnew]; rfl
        · rfl
    have hfld : s.target (.fld s.blks.length) = none := by rw [target_fld, hnew]; rfl
    have hcnt : ∀ b, cnt ({ s with blks := s.blks ++ [some (Blk.mk 1 a none)] } : St α).locs s.target b =
        cnt s.locs s.target b := by
      intro b
      unfold cnt St.locs
      simp only [List.length_append, List.length_cons, List.length_nil, List.range_succ, List.map_append,
        List.countP_append, List.map_cons, List.map_nil, List.countP_cons, List.countP_nil, hfld,
        Nat.zero_add]
      simp
    have hno : ∀ l, s.target l ≠ some s.blks.length := by
      intro l e
      have := hg.live l _ e
      rw [hnew] at this; cases this
    have hi1 : Inv ({ s with blks := s.blks ++ [some (Blk.mk 1 a none)] } : St α) s.target [s.blks.length] := by
      refine ⟨fun l b e => by rw [htar]; exact e, ?_, ?_, ?_, ?_, hg.once, ?_⟩
      · intro b k hb
        rw [hcnt]
        rw [hblk] at hb
        split at hb
        · rename_i e
          obtain rfl := Option.some.inj hb
          have h0 : cnt s.locs s.target b = 0 := by
            rcases Nat.eq_zero_or_pos (cnt s.locs s.target b) with h | h
            · exact h
            · obtain ⟨l, _, h2⟩ := exists_of_cnt_pos h
              exact absurd h2 (e ▸ hno l)
          rw [h0, e]; simp
        · rename_i e
          rw [hi.count b k hb]
          simp [Ne.symm e]
      · intro l b e
        rw [hblk]; split
        · rfl
        · exact hg.live l b e
      · intro b hb
        simp at hb; subst hb
        rw [hblk, if_pos rfl]; rfl
      · simp; omega
      · intro b
        rw [hblk]
        simp only [List.length_append, List.length_cons, List.length_nil]
        rw [hg.dead b]
        by_cases e : b = s.blks.length
        · subst e; simp
        · rw [if_neg e]
          constructor
          · rintro ⟨h1, h2⟩; exact ⟨by omega, h2⟩
          · rintro ⟨h1, h2⟩; exact ⟨by omega, h2⟩
    have hi2 := hi1.declare (h := some s.blks.length) (pend' := []) (fun x => by simp [List.count_cons])
      (by simp; omega)
    have ht : ∀ l, (St.declare ({ s with blks := s.blks ++ [some (Blk.mk 1 a none)] } : St α)
        (some s.blks.length)).target l = upd s.target (.var s.vars.length) (some s.blks.length) l := by
      intro l
      rw [declare_target]
      unfold upd
      rw [htar]
    refine ⟨_, rfl, hi2.good ht ?_, by simp [St.declare]; omega, _, rfl, fun l => .inl (ht l), ?_⟩
    · intro b k hb
      have hb : ({ s with blks := s.blks ++ [some (Blk.mk 1 a none)] } : St α).blk b = some k := hb
      rw [hblk] at hb
      split at hb
      · obtain rfl := Option.some.inj hb; simp
      · exact hg.pos hb
    · intro x k hx hb
      have hb : ({ s with blks := s.blks ++ [some (Blk.mk 1 a none)] } : St α).blk x = some k := hb
      rw [hblk, if_neg (by omega)] at hb
      exact ⟨k, hb, rfl⟩
  | dup p =>
    obtain ⟨hlen, hv⟩ := hl
    unfold exec
    dsimp only
    rcases locate_spec hg hv p.steps with ⟨h, hn⟩ | ⟨l, h, hL⟩
    · left; rw [h]; exact ⟨rfl, hn⟩
    · refine .inr ⟨hL.notNull, ?_⟩
      obtain ⟨⟨h1, e1⟩, _⟩ := locate_reach (l := l) _ h
      have ht := get_target e1
      rw [h, rc_ok_bind, e1, rc_ok_bind]
      cases h1 with
      | none =>
        have hi := (hg.inv hsm).declare (h := none) (pend' := []) (by simp) (by simp; omega)
        refine ⟨_, rfl, hi.good (declare_target s none) (fun b k hb => hg.pos (s := s) hb),
          by simp [St.declare]; omega, _, ⟨l, hL, rfl⟩, fun l' => .inl ?_, fun x k _ hx => ⟨k, hx, rfl⟩⟩
        rw [ht]; exact declare_target s none l'
      | some b =>
        obtain ⟨k, hk⟩ := Option.isSome_iff_exists.mp (hg.live _ _ ht)
        simp only [hk]
        have := addref_spec hg (by omega) hk
        refine ⟨_, rfl, this.1, by simp [St.declare, St.setBlk]; omega, _, ⟨l, hL, rfl⟩, ?_⟩
        rw [ht]; exact this.2
  | fromThis p =>
    obtain ⟨hlen, hv⟩ := hl
    unfold exec
    dsimp only
    rcases locate_spec hg hv p.steps with ⟨h, m, l, hm, hn⟩ | ⟨l, h, hL⟩
    · left; rw [h]; exact ⟨rfl, m, l, by omega, hn⟩
    · obtain ⟨⟨h1, e1⟩, _⟩ := locate_reach (l := l) _ h
      have ht := get_target e1
      rw [h, rc_ok_bind, e1, rc_ok_bind]
      cases h1 with
      | none => left; exact ⟨rfl, _, l, Nat.lt_succ_self _, hL, ht⟩
      | some b =>
        refine .inr ⟨(Leads.fld hL ht).notNull, ?_⟩
        obtain ⟨k, hk⟩ := Option.isSome_iff_exists.mp (hg.live _ _ ht)
        simp only [hk]
        have := addref_spec hg (by omega) hk
        refine ⟨_, rfl, this.1, by simp [St.declare, St.setBlk]; omega, _, ⟨l, hL, rfl⟩, ?_⟩
        rw [ht]; exact this.2
  | move p =>
    obtain ⟨hlen, hv⟩ := hl
    unfold exec
    dsimp only
    rcases locate_spec hg hv p.steps with ⟨h, hn⟩ | ⟨l, h, hL⟩
    · left; rw [h]; exact ⟨rfl, hn⟩
    · refine .inr ⟨hL.notNull, ?_⟩
      obtain ⟨⟨h1, e1⟩, _⟩ := locate_reach (l := l) _ h
      have ht := get_target e1
      obtain ⟨s1, g1, g2, g3, g4, g5, g6, g7⟩ := set_spec e1 none
      rw [h, rc_ok_bind, e1, rc_ok_bind, g1, rc_ok_bind]
      have hpos1 : ∀ b k, s1.blk b = some k → k.refs ≠ 0 := by
        intro b k hb
        obtain ⟨k0, a1, a2⟩ := g2.some hb
        rw [a2]; exact hg.pos a1
      have htar : ∀ l', (s1.declare h1).target l' =
          upd (upd s.target l none) (.var s.vars.length) (s.target l) l' := by
        intro l'
        rw [declare_target, g2.2.2.1, ht]
        unfold upd
        rw [g3]
        rfl
      refine ⟨_, rfl, ?_, by simp [St.declare, g2.2.1, g2.2.2.1]; omega, _, ⟨l, hL, rfl⟩,
        fun l' => .inl (htar l'), ?_⟩
      · have htar2 : ∀ l', (s1.declare h1).target l' =
            upd (upd s.target l none) (.var s1.vars.length) h1 l' := by
          intro l'; rw [htar, ht, g2.2.2.1]
        cases h1 with
        | none =>
          have hi : Inv s1 (upd s.target l none) [] := by
            have e : upd s.target l none = s.target := by
              funext l'; unfold upd; split
              · rename_i e; rw [e, ht]
              · rfl
            rw [e]
            exact (hg.inv hsm).same g2 (fun l' b hb => by rw [g3, e]; exact hb)
          have hi2 := hi.declare (h := none) (pend' := []) (by simp)
            (by simp [g2.2.1, g2.2.2.1]; omega)
          exact hi2.good htar2 hpos1
        | some b =>
          have hi : Inv s1 (upd s.target l none) [b] :=
            ((hg.inv hsm).take ht (by simp; omega)).same g2 (fun l' b hb => by rw [g3]; exact hb)
          have hi2 := hi.declare (h := some b) (pend' := []) (fun x => by simp [List.count_cons])
            (by simp [g2.2.1, g2.2.2.1]; omega)
          exact hi2.good htar2 hpos1
      · intro x k' _ hx
        have hx : s1.blk x = some k' := hx
        obtain ⟨k0, a1, a2⟩ := g2.some hx
        obtain ⟨k1, b1, b2⟩ := g7 x k0 a1
        rw [hx] at b1
        obtain rfl := Option.some.inj b1
        exact ⟨k0, a1, b2⟩
  | clear p =>
    unfold exec
    dsimp only
    rcases locate_spec hg hl p.steps with ⟨h, hn⟩ | ⟨l, h, hL⟩
    · left; rw [h]; exact ⟨rfl, hn⟩
    · refine .inr ⟨hL.notNull, ?_⟩
      obtain ⟨⟨h1, e1⟩, _⟩ := locate_reach (l := l) _ h
      obtain ⟨s', g1, g2, g3, g4, g5, g6, g7, g8, g9⟩ := drop_spec hg (by omega) e1 (locate_self h)
      rw [h, rc_ok_bind]
      refine ⟨s', g1, g2, by omega, _, ⟨l, hL, rfl⟩, ?_, fun x k' _ hx => g8 x k' hx⟩
      intro l'
      by_cases e : l' = l
      · subst e; left; rw [upd_same, get_target g5]
      · rw [upd_other _ _ e]; exact g9 l' e
  | leave v =>
    unfold exec
    dsimp only
    obtain ⟨h0, e0⟩ : s.Has v := hl
    have h : locate s v 0 = .ok (.var v) := by simp [locate, e0]
    have e1 := get_var e0
    refine .inr ⟨fun h => h, ?_⟩
    obtain ⟨s', g1, g2, g3, g4, g5, g6, g7, g8, g9⟩ := drop_spec hg (by omega) e1 (by intro c hc; cases hc)
    rw [h, rc_ok_bind, g1, rc_ok_bind]
    have htar : ∀ l', ({ s' with vars := s'.vars.set v none } : St α).target l' = s'.target l' := by
      intro l'
      cases l' with
      | fld x => rfl
      | var j =>
        by_cases e : j = v
        · subst e
          rw [get_target g5]
          simp only [St.target]
          rw [List.getElem?_set]
          split
          · split <;> rfl
          · rename_i hne; exact absurd rfl hne
        · simp only [St.target]; rw [List.getElem?_set_ne (Ne.symm e)]
    refine ⟨_, rfl, ?_, by simp; omega, _, rfl, ?_, fun x k' _ hx => g8 x k' hx⟩
    · have hi := g2.inv (by omega)
      have hsame : Same s' ({ s' with vars := s'.vars.set v none } : St α) :=
        ⟨fun x => rfl, rfl, by simp, rfl⟩
      exact (hi.same hsame (fun l b hb => by rw [htar]; exact hb)).good htar
        (fun b k hb => g2.pos (s := s') hb)
    · intro l'
      rw [htar]
      by_cases e : l' = .var v
      · subst e; left; rw [upd_same, get_target g5]
      · rw [upd_other _ _ e]; exact g9 l' e
  | assign p q =>
    obtain ⟨hp, hq, hsafe⟩ := hl
    unfold exec
    dsimp only
    rcases locate_spec hg hp p.steps with ⟨h, hn⟩ | ⟨lp, h, hLp⟩
    · left; rw [h]; exact ⟨rfl, .inl hn⟩
    rcases locate_spec hg hq q.steps with ⟨h', hn⟩ | ⟨lq, h', hLq⟩
    · left; rw [h, h']; exact ⟨rfl, .inr hn⟩
    refine .inr ⟨fun c => c.elim hLp.notNull hLq.notNull, ?_⟩
    obtain ⟨⟨hp1, ep1⟩, _⟩ := locate_reach (l := lp) _ h
    obtain ⟨⟨hq1, eq1⟩, _⟩ := locate_reach (l := lq) _ h'
    obtain ⟨s1, g1, g2, g3, g4, g5, g6, g7, g8, g9⟩ := drop_spec hg (by omega) ep1 (locate_self h)
    rw [h, rc_ok_bind, h', rc_ok_bind, g1, rc_ok_bind]
    have hsm1 : s1.vars.length + s1.blks.length + 1 < 2 ^ 64 := by omega
    -- `q` is still there
    obtain ⟨hq2, eq2, hq3⟩ : ∃ hq2, s1.get lq = .ok hq2 ∧ (lq ≠ lp → hq2 = s.target lq) := by
      by_cases e : lq = lp
      · subst e; exact ⟨none, g5, fun h => absurd rfl h⟩
      · cases lq with
        | var i =>
          refine ⟨hq1, ?_, fun _ => (get_target eq1).symm⟩
          unfold St.get at eq1 ⊢
          simp only [g6 i e]
          exact eq1
        | fld d =>
          obtain ⟨k, hk⟩ := Option.isSome_iff_exists.mp (g7 d (hsafe lp d hLp hLq))
          refine ⟨k.next, get_fld hk, fun _ => ?_⟩
          rcases g9 (.fld d) e with h | ⟨x, hx, hx2⟩
          · rw [← h, target_fld, hk]; rfl
          · injection hx with hx; subst hx; rw [hk] at hx2; cases hx2
    obtain ⟨s2, a1, a2, a3, a4, a5, a6, a7⟩ := set_spec g5 hq2
    have eq3 : ∃ h3, s2.get lq = .ok h3 := by
      by_cases e : lq = lp
      · subst e; exact ⟨_, a4⟩
      · exact ⟨_, a5 lq hq2 e eq2⟩
    obtain ⟨hq4, eq4⟩ := eq3
    obtain ⟨s3, b1, b2, b3, b4, b5, b6, b7⟩ := set_spec eq4 none
    rw [eq2, rc_ok_bind, a1, rc_ok_bind, b1]
    have htar1 : s1.target lp = none := get_target g5
    have htarq : s1.target lq = hq2 := get_target eq2
    have htar : ∀ l, s3.target l = upd (upd s1.target lp hq2) lq none l := by
      intro l; rw [b3]; unfold upd; rw [a3]; rfl
    have hpos : ∀ b k, s3.blk b = some k → k.refs ≠ 0 := by
      intro b k hb
      obtain ⟨k2, c1, c2⟩ := b2.some hb
      obtain ⟨k1, d1, d2⟩ := a2.some c1
      rw [c2, d2]; exact g2.pos d1
    have hi1 := g2.inv (by omega)
    refine ⟨s3, rfl, ?_, by rw [b2.2.2.1, b2.2.1, a2.2.2.1, a2.2.1]; omega,
      upd (upd s.target lp (s.target lq)) lq none, ⟨lp, lq, hLp, hLq, rfl⟩, ?_, ?_⟩
    · cases hq2 with
      | none =>
        -- nothing is stored
        have e2 : ∀ l, upd (upd s1.target lp none) lq none l = s1.target l := by
          intro l
          unfold upd
          by_cases e1 : l = lq
          · rw [if_pos e1, e1, htarq]
          · rw [if_neg e1]
            split
            · rename_i e; rw [e, htar1]
            · rfl
        have hi2 : Inv s2 s1.target [] := hi1.same a2 (fun l b hb => by
          rw [a3]
          by_cases e : l = lp
          · rw [e, htar1] at hb; cases hb
          · rw [upd_other _ _ e]; exact hb)
        have hi3 : Inv s3 s1.target [] := hi2.same b2 (fun l b hb => by rw [htar, e2]; exact hb)
        exact hi3.good (fun l => by rw [htar, e2]) hpos
      | some b =>
        have hne : lq ≠ lp := by rintro rfl; rw [htar1] at htarq; cases htarq
        have hi2 : Inv s1 (upd s1.target lq none) [b] := hi1.take htarq (by simp; omega)
        have hi3 : Inv s2 (upd (upd s1.target lq none) lp (some b)) [] :=
          hi2.put a2 (get_mem g5) (by rw [upd_other _ _ (Ne.symm hne)]; exact htar1) a3
        have e3 : ∀ l, s3.target l = upd (upd s1.target lq none) lp (some b) l := by
          intro l; rw [htar, upd_comm_eq _ _ _ (Ne.symm hne)]
        have hi4 : Inv s3 (upd (upd s1.target lq none) lp (some b)) [] :=
          hi3.same b2 (fun l x hx => by rw [e3]; exact hx)
        exact hi4.good e3 hpos
    · intro l
      rw [htar]
      by_cases e1 : l = lq
      · left; rw [e1, upd_same, upd_same]
      · rw [upd_other _ _ e1, upd_other _ _ e1]
        by_cases e2 : l = lp
        · left; rw [e2, upd_same, upd_same]
          exact hq3 (fun e => e1 (e2.trans e.symm))
        · rw [upd_other _ _ e2, upd_other _ _ e2]
          rcases g9 l e2 with h | ⟨x, hx, hx2⟩
          · exact .inl h
          · right
            refine ⟨x, hx, ?_⟩
            have h1 := a2.isSome x
            have h2 := b2.isSome x
            rw [hx2] at h1; rw [h1] at h2
            simpa using h2
    · intro x k' _ hx
      obtain ⟨k2, c1, _⟩ := b2.some hx
      obtain ⟨k3, d1, d2⟩ := b7 x k2 c1
      obtain ⟨k1, e1, _⟩ := a2.some c1
      obtain ⟨k4, f1, f2⟩ := a7 x k1 e1
      obtain ⟨k0, h1, h2⟩ := g8 x k1 e1
      rw [hx] at d1; obtain rfl := Option.some.inj d1
      rw [c1] at f1; obtain rfl := Option.some.inj f1
      exact ⟨k0, h1, by rw [d2, f2, h2]⟩

theorem init_good : Good (St.init : St α) := by
  refine ⟨?_, ?_, ?_, by simp [St.init], ?_⟩
  · intro b k h; simp [St.blk, St.init] at h
  · intro b k h; simp [St.blk, St.init] at h
  · intro l b h; cases l <;> simp [St.target, St.blk, St.init] at h
  · intro b; simp [St.init]

theorem reachable_good {s : St α} (h : Reachable s) :
    Good s ∧ s.vars.length + s.blks.length ≤ 2 ^ 63 + 1 := by
  induction h with
  | init => exact ⟨init_good, by simp [St.init]⟩
  | step _ hl he ih =>
    rcases exec_spec ih.1 ih.2 _ hl with ⟨h, _⟩ | ⟨_, s', h1, h2, h3, _⟩
    · rw [h] at he; cases he
    · rw [h1] at he; injection he with he; subst he
      exact ⟨h2, h3⟩

end Rc
end Rpp
