import Verif.Proof.Box

namespace Rpp.BoxM
open Rpp.Spec

variable {α : Type}

/-- The lists `vs` are what the chains hold. -/
structure Inv (s : St α) (own : Own α) (vs : List (Option (List α))) : Prop where
  rep : Rep s none own
  tmp : own none = some []
  len : vs.length = s.vars.length
  abs : ∀ i, (vs[i]?).join = (own (some i)).map (·.map Prod.snd)

theorem Inv.link {s : St α} {own : Own α} {vs : List (Option (List α))} (I : Inv s own vs) (p : Path) :
    (∃ l a b, boxLink vs p = .ok l ∧ own (some p.var) = some (a ++ b) ∧ l = a.map Prod.snd ++ b.map Prod.snd ∧
      a.length = p.steps ∧ locate s p.var p.steps = .ok (locOf p.var a) ∧ p.var < vs.length) ∨
    (∃ e, boxLink vs p = .error e ∧ locate s p.var p.steps = .error e) := by
  have ha := I.abs p.var
  rcases ho : own (some p.var) with _ | r
  · right
    rw [ho] at ha
    refine ⟨.ub, ?_, locate_ub (I.rep.out _ ho) _⟩
    unfold boxLink
    split
    · rename_i e; rw [e] at ha; simp at ha
    · rfl
  · obtain ⟨h, hv, hp⟩ := I.rep.varAt ho
    rw [ho] at ha
    have hq : vs[p.var]? = some (some (r.map Prod.snd)) := by
      rcases hq : vs[p.var]? with _ | o
      · rw [hq] at ha; simp at ha
      · rw [hq] at ha; simp at ha; rw [ha]
    by_cases hl : p.steps ≤ r.length
    · left
      refine ⟨r.map Prod.snd, r.take p.steps, r.drop p.steps, ?_, by rw [List.take_append_drop], ?_, ?_, ?_, ?_⟩
      · unfold boxLink
        rw [hq]
        dsimp only
        rw [if_pos (by simpa using hl)]
      · rw [← List.map_append, List.take_append_drop]
      · simp [hl]
      · rw [← List.take_append_drop p.steps r] at hp
        obtain ⟨m, h1, _⟩ := pre_append.1 hp
        exact locate_ok hv _ (by simp [hl]) h1
      · exact (List.getElem?_eq_some_iff.1 hq).1
    · right
      refine ⟨.die, ?_, ?_⟩
      · unfold boxLink
        rw [hq]
        dsimp only
        rw [if_neg (by simpa using hl)]
      · have := locate_die hv hp (p.steps - r.length - 1)
        rwa [show r.length + (p.steps - r.length - 1) + 1 = p.steps by omega] at this

theorem join_set {β : Type} (l : List (Option β)) (v i : Nat) (x : Option β) (h : v < l.length) :
    ((l.set v x)[i]?).join = if i = v then x else (l[i]?).join := by
  rw [List.getElem?_set]
  by_cases q : v = i
  · subst q; simp [h]
  · rw [if_neg q, if_neg (fun e => q e.symm)]

theorem join_push {β : Type} (l : List (Option β)) (i : Nat) (x : Option β) :
    ((l ++ [x])[i]?).join = if i = l.length then x else (l[i]?).join := by
  by_cases q : i < l.length
  · rw [List.getElem?_append_left q, if_neg (by omega)]
  · by_cases q' : i = l.length
    · subst q'; simp
    · rw [if_neg q', List.getElem?_eq_none (by simp; omega), List.getElem?_eq_none (by omega)]

theorem Inv.push {s : St α} {th : Option Nat} {own : Own α} {vs : List (Option (List α))} {t : List (Nat × α)}
    (R : Rep s th own) (h0 : own none = some t) (hl : vs.length = s.vars.length)
    (ha : ∀ i, (vs[i]?).join = (own (some i)).map (·.map Prod.snd)) :
    Inv (s.declare th) (upd (upd own (some s.vars.length) (some t)) none (some [])) (vs ++ [some (t.map Prod.snd)]) := by
  refine ⟨declare_ok R h0, by simp [upd], by simp [St.declare, hl], fun i => ?_⟩
  rw [join_push, ha, hl]
  simp only [upd, reduceCtorEq, if_false, Option.some.injEq]
  split <;> rfl

/-- The abstract lists after a chain is given to `v`. -/
theorem abs_upd {own : Own α} {vs : List (Option (List α))} {v : Nat} (hv : v < vs.length)
    (ha : ∀ i, (vs[i]?).join = (own (some i)).map (·.map Prod.snd)) (r : Option (List (Nat × α))) :
    ∀ i, ((vs.set v (r.map (·.map Prod.snd)))[i]?).join = (upd own (some v) r (some i)).map (·.map Prod.snd) := by
  intro i
  rw [join_set _ _ _ _ hv, ha]
  simp only [upd, Option.some.injEq]
  split <;> rfl

theorem abs_tmp {own : Own α} {vs : List (Option (List α))} {r : Option (List (Nat × α))}
    (ha : ∀ i, (vs[i]?).join = (own (some i)).map (·.map Prod.snd)) :
    ∀ i, (vs[i]?).join = (upd own none r (some i)).map (·.map Prod.snd) := by
  intro i
  rw [ha]
  simp [upd]

theorem set_comm {s s1 s2 : St α} {l l' : Loc} {h h' : Option Nat} (hl : l ≠ l') (e1 : s.set l h = .ok s1)
    (e2 : s1.set l' h' = .ok s2) : ∃ s1', s.set l' h' = .ok s1' ∧ s1'.set l h = .ok s2 := by
  unfold St.set at e1 e2
  cases l with
  | var i =>
    dsimp only at e1
    split at e1
    · rename_i o eo
      cases e1
      cases l' with
      | var j =>
        have hij : i ≠ j := fun q => hl (by rw [q])
        dsimp only at e2
        rw [List.getElem?_set_ne hij] at e2
        split at e2
        · rename_i o' eo'
          cases e2
          refine ⟨{ s with vars := s.vars.set j (some h') }, ?_, ?_⟩
          · unfold St.set; dsimp only; rw [eo']
          · unfold St.set; dsimp only
            rw [List.getElem?_set_ne (fun q => hij q.symm), eo]
            dsimp only
            rw [List.set_comm _ _ (fun q => hij q.symm)]
        · cases e2
      | fld c =>
        dsimp only [St.blk] at e2
        split at e2
        · rename_i k ek
          cases e2
          refine ⟨s.setBlk c (some { k with next := h' }), ?_, ?_⟩
          · unfold St.set St.blk; dsimp only; rw [ek]
          · unfold St.set; dsimp only [St.setBlk]; rw [eo]
        · cases e2
    · cases e1
  | fld b =>
    dsimp only at e1
    split at e1
    · rename_i k ek
      cases e1
      have hb : b < s.blks.length := blk_lt (by simp [ek])
      cases l' with
      | var j =>
        dsimp only [St.setBlk] at e2
        split at e2
        · rename_i o' eo'
          cases e2
          refine ⟨{ s with vars := s.vars.set j (some h') }, ?_, ?_⟩
          · unfold St.set; dsimp only; rw [eo']
          · unfold St.set St.blk; dsimp only
            unfold St.blk at ek
            rw [ek]; rfl
        · cases e2
      | fld c =>
        have hij : b ≠ c := fun q => hl (by rw [q])
        dsimp only at e2
        rw [blk_set hb, if_neg (fun q => hij q.symm)] at e2
        split at e2
        · rename_i k' ek'
          cases e2
          have hc : c < s.blks.length := blk_lt (by simp [ek'])
          refine ⟨s.setBlk c (some { k' with next := h' }), ?_, ?_⟩
          · unfold St.set; dsimp only; rw [ek']
          · unfold St.set; dsimp only
            rw [blk_set hc, if_neg hij, ek]
            dsimp only [St.setBlk]
            rw [List.set_comm _ _ (fun q => hij q.symm)]
        · cases e2
    · cases e1

/-- Links of different variables are different boxes. -/
theorem Rep.loc_ne {s : St α} {th : Option Nat} {own : Own α} (R : Rep s th own) {v w : Nat} (hvw : v ≠ w)
    {a b : List (Nat × α)} {a' b' : List (Nat × α)} (hv : own (some v) = some (a ++ b))
    (hw : own (some w) = some (a' ++ b')) : locOf v a ≠ locOf w a' := by
  rcases List.eq_nil_or_concat a with rfl | ⟨a, y, rfl⟩ <;>
    rcases List.eq_nil_or_concat a' with rfl | ⟨a', y', rfl⟩
  · rw [locOf_nil, locOf_nil]; simpa using hvw
  · obtain ⟨c, x⟩ := y'
    rw [List.concat_eq_append, locOf_snoc, locOf_nil]; simp
  · obtain ⟨c, x⟩ := y
    rw [List.concat_eq_append, locOf_snoc, locOf_nil]; simp
  · obtain ⟨c, x⟩ := y
    obtain ⟨c', x'⟩ := y'
    rw [List.concat_eq_append, List.concat_eq_append, locOf_snoc, locOf_snoc]
    rw [List.concat_eq_append] at hv hw
    intro q
    have q : c = c' := by simpa using q
    subst q
    have := R.uniq _ _ _ _ c hv hw (by simp [ids]) (by simp [ids])
    simp at this
    exact hvw this

theorem exec_ok {s : St α} {own : Own α} {vs : List (Option (List α))} (I : Inv s own vs) (op : Op α)
    (hl : boxLegal op) :
    match boxStep vs op with
    | .ok vs' => ∃ s' own', exec s op = .ok s' ∧ Inv s' own' vs'
    | .error e => exec s op = .error e := by
  cases op with
  | null => exact ⟨_, _, rfl, Inv.push I.rep I.tmp I.len I.abs⟩
  | make a =>
    exact ⟨_, _, rfl, Inv.push (t := [((alloc s a none).2, a)]) (alloc_ok I.rep I.tmp a) (by simp [upd])
      (by simp [alloc, I.len]) (abs_tmp I.abs)⟩
  | clone p =>
    simp only [boxStep, exec, bind, Except.bind]
    rcases I.link p with ⟨l, a, b, e1, e2, rfl, e4, e5, e6⟩ | ⟨e, e1, e2⟩
    · rw [e1, e5]
      dsimp only
      obtain ⟨h, hv, hp⟩ := I.rep.varAt e2
      obtain ⟨m, hp, hr⟩ := pre_append.1 hp
      have hn := I.rep.nodup _ _ e2
      simp only [ids, List.map_append] at hn
      rw [get_locOf hv hp]
      dsimp only
      have hlen := nodup_len s.blks.length _ (List.nodup_append.1 hn).2.1 (fun c hc => blk_lt (hr.alive c hc))
      obtain ⟨s', h', r', f1, f2, f3, f4, f5, f6, f7, f8, f9⟩ := clone_ok (s.blks.length + 1) s m b hr (by simp at hlen; omega)
      rw [f1]
      have : List.drop p.steps (List.map Prod.snd a ++ List.map Prod.snd b) = r'.map Prod.snd := by
        rw [← e4, f3, List.drop_append_of_le_length (by simp)]; simp
      rw [this]
      exact ⟨_, _, rfl, Inv.push (new_ok I.rep I.tmp f2 f4 f5 f6 f7 f8 f9) (by simp [upd])
        (by rw [f4]; exact I.len) (abs_tmp I.abs)⟩
    · rw [e1, e2]
  | move p =>
    simp only [boxStep, exec, bind, Except.bind]
    rcases I.link p with ⟨l, a, b, e1, e2, rfl, e4, e5, e6⟩ | ⟨e, e1, e2⟩
    · rw [e1, e5]
      dsimp only
      obtain ⟨h, s', f1, f2, f3, f4⟩ := take_ok I.rep I.tmp e2
      rw [f1]
      dsimp only
      rw [f2]
      have d1 : List.drop p.steps (List.map Prod.snd a ++ List.map Prod.snd b) = b.map Prod.snd := by
        rw [← e4, List.drop_append_of_le_length (by simp)]; simp
      have d2 : List.take p.steps (List.map Prod.snd a ++ List.map Prod.snd b) = a.map Prod.snd := by
        rw [← e4, ← List.length_map (f := Prod.snd), List.take_left]
      rw [d1, d2]
      exact ⟨_, _, rfl, Inv.push f4 (by simp [upd]) (by rw [f3]; simp [I.len])
        (abs_tmp (abs_upd e6 I.abs (some a)))⟩
    · rw [e1, e2]
  | emplace p x =>
    simp only [boxStep, exec, bind, Except.bind]
    rcases I.link p with ⟨l, a, b, e1, e2, rfl, e4, e5, e6⟩ | ⟨e, e1, e2⟩
    · rw [e1, e5]
      dsimp only
      obtain ⟨s1, f1, f2, _, _, f3⟩ := dtor_ok I.rep I.tmp e2
      rw [f1]
      dsimp only
      have R2 := alloc_ok f3 (by simp [upd, I.tmp]) x
      obtain ⟨s3, g1, g2, g3⟩ := put_ok (v := p.var) (p := a) (t := [((alloc s1 x none).2, x)]) R2 (by simp [upd]) (by simp [upd])
      rw [g1]
      refine ⟨_, _, rfl, g3, by simp [upd], by rw [g2]; simp [alloc, f2, I.len], ?_⟩
      have d2 : List.take p.steps (List.map Prod.snd a ++ List.map Prod.snd b) = a.map Prod.snd := by
        rw [← e4, ← List.length_map (f := Prod.snd), List.take_left]
      rw [d2]
      intro i
      rw [join_set _ _ _ _ e6, I.abs]
      by_cases hi : i = p.var
      · subst hi; simp [upd]
      · simp [upd, hi]
    · rw [e1, e2]
  | emplaceOwn p => exact hl.elim
  | write p x =>
    simp only [boxStep, exec, bind, Except.bind]
    rcases I.link p with ⟨l, a, b, e1, e2, rfl, e4, e5, e6⟩ | ⟨e, e1, e2⟩
    · rw [e1, e5]
      dsimp only
      obtain ⟨h, hv, hp⟩ := I.rep.varAt e2
      obtain ⟨m, hp, hr⟩ := pre_append.1 hp
      rw [get_locOf hv hp]
      dsimp only
      cases b with
      | nil =>
        have : m = none := hr
        subst this
        rw [if_neg (by simp; omega)]
      | cons y b =>
        obtain ⟨c, y⟩ := y
        obtain ⟨rfl, n, hc, hr⟩ := hr
        rw [if_pos (by simp; omega)]
        dsimp only
        rw [hc]
        have hcl : c < s.blks.length := blk_lt (by simp [hc])
        have hn := I.rep.nodup _ _ e2
        simp only [ids, List.map_append, List.map_cons] at hn
        have hn' := List.nodup_append.1 hn
        have hca : c ∉ ids a := fun q => hn'.2.2 c q c (by simp) rfl
        have hcb : c ∉ ids b := (List.nodup_cons.1 hn'.2.1).1
        have hblk : ∀ d, d ≠ c → (s.setBlk c (some ⟨x, n⟩)).blk d = s.blk d := fun d hd => by
          rw [blk_set hcl, if_neg hd]
        have hsome : ∀ d, ((s.setBlk c (some ⟨x, n⟩)).blk d).isSome = (s.blk d).isSome := fun d => by
          rw [blk_set hcl]
          split
          · rename_i q; subst q; simp [hc]
          · rfl
        have hids : ids (a ++ (c, x) :: b) = ids (a ++ (c, y) :: b) := by simp [ids]
        have key : ∀ i r', upd own (some p.var) (some (a ++ (c, x) :: b)) i = some r' →
            ∃ r'', own i = some r'' ∧ ids r' = ids r'' := by
          intro i r' hi
          by_cases hiv : i = some p.var
          · simp only [upd, if_pos hiv, Option.some.injEq] at hi
            subst hi
            exact ⟨_, by rw [hiv]; exact e2, hids⟩
          · simp only [upd, if_neg hiv] at hi
            exact ⟨r', hi, rfl⟩
        refine ⟨_, upd own (some p.var) (some (a ++ (c, x) :: b)), rfl, ⟨?_, ?_, ?_, ?_, ?_, I.rep.dead, ?_⟩, by simp [upd, I.tmp], by simp [I.len, St.setBlk], ?_⟩
        · intro i r' hi
          by_cases hiv : i = some p.var
          · subst hiv
            simp only [upd, if_true, Option.some.injEq] at hi
            subst hi
            refine ⟨h, by simp [root, St.setBlk, hv], pre_append.2 ⟨some c, hp.frame fun d hd => hblk d fun q => hca (by rw [← q]; exact hd), rfl, n, ?_, hr.frame fun d hd => hblk d fun q => hcb (by rw [← q]; exact hd)⟩⟩
            rw [blk_set hcl, if_pos rfl]
          · simp only [upd, if_neg hiv] at hi
            obtain ⟨h1, q1, q2⟩ := I.rep.var _ _ hi
            refine ⟨h1, ?_, q2.frame fun d hd => hblk d fun q => ?_⟩
            · cases i <;> exact q1
            · subst q
              exact hiv (I.rep.uniq _ _ _ _ d hi e2 hd (by simp [ids]))
        · intro i hi
          by_cases hiv : i = some p.var
          · simp [upd, hiv] at hi
          · simp only [upd, if_neg hiv] at hi
            have := I.rep.out _ hi
            cases i <;> exact this
        · intro i r' hi
          obtain ⟨r'', k1, k2⟩ := key _ _ hi
          rw [k2]
          exact I.rep.nodup _ _ k1
        · intro i j r1 r2 d hi hj q1 q2
          obtain ⟨r1', k1, k2⟩ := key _ _ hi
          obtain ⟨r2', k3, k4⟩ := key _ _ hj
          exact I.rep.uniq _ _ _ _ d k1 k3 (k2 ▸ q1) (k4 ▸ q2)
        · intro d hd
          rw [hsome] at hd
          obtain ⟨i, r', q1, q2⟩ := I.rep.live d hd
          by_cases hiv : i = some p.var
          · subst hiv
            rw [e2] at q1
            cases q1
            exact ⟨some p.var, _, by simp only [upd, if_true], hids ▸ q2⟩
          · exact ⟨i, r', by simp [upd, hiv, q1], q2⟩
        · intro d
          have hd := hsome d
          show d ∈ s.dead ↔ _
          rw [I.rep.gone]
          show _ ↔ d < (s.setBlk c (some ⟨x, n⟩)).blks.length ∧ (s.setBlk c (some ⟨x, n⟩)).blk d = none
          rw [show (s.setBlk c (some ⟨x, n⟩)).blks.length = s.blks.length by simp [St.setBlk]]
          constructor
          · rintro ⟨x1, x2⟩
            rw [x2] at hd
            exact ⟨x1, by simpa using hd⟩
          · rintro ⟨x1, x2⟩
            refine ⟨x1, ?_⟩
            rw [x2] at hd
            simpa using hd.symm
        · have := abs_upd e6 I.abs (some (a ++ (c, x) :: b))
          have d : (List.map Prod.snd a ++ List.map Prod.snd ((c, y) :: b)).set p.steps x =
              (a ++ (c, x) :: b).map Prod.snd := by
            rw [List.map_append, List.set_append_right _ _ (by simp; omega)]
            simp [e4]
          rw [d]
          exact this
    · rw [e1, e2]
  | leave v =>
    simp only [boxStep, exec, bind, Except.bind]
    rcases I.link ⟨v, 0⟩ with ⟨l, a, b, e1, e2, rfl, e4, e5, e6⟩ | ⟨e, e1, e2⟩
    · have : a = [] := List.eq_nil_of_length_eq_zero e4
      subst this
      dsimp only at e2 e5 e6
      rw [e1, e5]
      dsimp only
      obtain ⟨s1, f1, f2, _, _, R⟩ := dtor_ok I.rep I.tmp e2
      rw [f1]
      have hvl : v < s1.vars.length := by rw [f2, ← I.len]; exact e6
      refine ⟨_, upd own (some v) none, rfl, ⟨?_, ?_, ?_, ?_, ?_, R.dead, R.gone⟩, by simp [upd, I.tmp], by simp [I.len, f2], ?_⟩
      · intro i r' hi
        by_cases hiv : i = some v
        · simp [upd, hiv] at hi
        · obtain ⟨h1, q1, q2⟩ := R.var i r' (by simpa [upd, hiv] using hi)
          refine ⟨h1, ?_, q2.frame fun _ _ => rfl⟩
          cases i with
          | none => exact q1
          | some i =>
            unfold root at q1 ⊢
            dsimp only at q1 ⊢
            rw [join_set _ _ _ _ hvl, if_neg (fun q => hiv (by rw [q]))]
            exact q1
      · intro i hi
        cases i with
        | none => simp [upd, I.tmp] at hi
        | some i =>
          unfold root
          dsimp only
          rw [join_set _ _ _ _ hvl]
          by_cases hiv : i = v
          · rw [if_pos hiv]
          · rw [if_neg hiv]
            exact R.out (some i) (by simpa [upd, hiv] using hi)
      · intro i r' hi
        by_cases hiv : i = some v
        · simp [upd, hiv] at hi
        · exact R.nodup i r' (by simpa [upd, hiv] using hi)
      · intro i j r1 r2 c hi hj q1 q2
        by_cases hiv : i = some v
        · simp [upd, hiv] at hi
        · by_cases hjv : j = some v
          · simp [upd, hjv] at hj
          · exact R.uniq i j r1 r2 c (by simpa [upd, hiv] using hi) (by simpa [upd, hjv] using hj) q1 q2
      · intro c hc
        obtain ⟨i, r', q1, q2⟩ := R.live c hc
        by_cases hiv : i = some v
        · simp only [upd, if_pos hiv, Option.some.injEq] at q1
          subst q1
          simp at q2
        · exact ⟨i, r', by simpa [upd, hiv] using q1, q2⟩
      · exact abs_upd e6 I.abs none
    · dsimp only at e2
      rw [e1, e2]
  | assign p q =>
    simp only [boxStep, exec, bind, Except.bind]
    rcases I.link p with ⟨l, a, b, e1, e2, rfl, e4, e5, e6⟩ | ⟨e, e1, e2⟩
    · rw [e1, e5]
      dsimp only
      rcases I.link q with ⟨l', a', b', e1', e2', rfl, e4', e5', e6'⟩ | ⟨e, e1', e2'⟩
      · rw [e1', e5']
        dsimp only
        obtain ⟨s1, f1, f2, _, _, R⟩ := dtor_ok I.rep I.tmp e2
        rw [f1]
        dsimp only
        have d2 : List.take p.steps (List.map Prod.snd a ++ List.map Prod.snd b) = a.map Prod.snd := by
          rw [← e4, ← List.length_map (f := Prod.snd), List.take_left]
        have d1' : List.drop q.steps (List.map Prod.snd a' ++ List.map Prod.snd b') = b'.map Prod.snd := by
          rw [← e4', List.drop_append_of_le_length (by simp)]; simp
        have d2' : List.take q.steps (List.map Prod.snd a' ++ List.map Prod.snd b') = a'.map Prod.snd := by
          rw [← e4', ← List.length_map (f := Prod.snd), List.take_left]
        have I1 := abs_upd e6 I.abs (some a)
        by_cases hpq : p.var = q.var
        · rw [if_pos hpq, d2]
          have hpq' := hl hpq
          subst hpq'
          have : a = a' := by
            rw [e2] at e2'
            have := Option.some.inj e2'
            exact (List.append_inj this (by omega)).1
          subst this
          have hown : upd own (some p.var) (some a) (some p.var) = some (a ++ []) := by simp [upd]
          obtain ⟨h, s2, g1, g2, g3, g4⟩ := take_ok R (by simp [upd, I.tmp]) hown
          obtain ⟨m, h1, h2⟩ := R.var none [] (by simp [upd, I.tmp])
          obtain ⟨hh, hv, hp⟩ := R.varAt (v := p.var) (r := a) (by simp [upd])
          have : h = none := by
            have := get_locOf hv hp
            rw [g1] at this
            cases this
            rfl
          subst this
          rw [g1]
          dsimp only
          rw [g2]
          dsimp only
          have hown2 : upd (upd (upd own (some p.var) (some a)) (some p.var) (some a)) none (some []) = upd own (some p.var) (some a) := by
            funext j
            simp only [upd]
            by_cases hj : j = none
            · subst hj; simp [I.tmp]
            · simp only [if_neg hj]
              split <;> rfl
          rw [hown2] at g4
          obtain ⟨s3, k1, k2, k3⟩ := put_ok (v := p.var) (p := a) (t := []) g4 (by simp [upd, I.tmp]) (by simp [upd])
          rw [k1]
          refine ⟨_, _, rfl, k3, by simp [upd], by rw [k2, g3, f2]; simp [I.len], ?_⟩
          intro i
          rw [join_set _ _ _ _ e6, I.abs]
          by_cases hi : i = p.var
          · subst hi; simp [upd]
          · simp [upd, hi]
        · rw [if_neg hpq, d2, d1', d2']
          have hown : upd own (some p.var) (some a) (some q.var) = some (a' ++ b') := by
            have hqp : ¬ q.var = p.var := fun e => hpq e.symm
            simp [upd, hqp, e2']
          have hne := R.loc_ne (a := a) (b := []) (a' := a') (b' := b') hpq (by simp [upd]) hown
          obtain ⟨h, s2, g1, g2, g3, g4⟩ := take_ok R (by simp [upd, I.tmp]) hown
          obtain ⟨s3, k1, k2, k3⟩ := put_ok (v := p.var) (p := a) (t := b') g4 (by simp [upd]) (by simp [upd, hpq])
          obtain ⟨s2', m1, m2⟩ := set_comm (fun q => hne q.symm) g2 k1
          rw [g1]
          dsimp only
          rw [m1]
          dsimp only
          rw [m2]
          refine ⟨_, _, rfl, k3, by simp [upd], by rw [k2, g3, f2]; simp [I.len], ?_⟩
          intro i
          rw [join_set _ _ _ _ (by simpa using e6'), join_set _ _ _ _ e6, I.abs]
          by_cases hi : i = p.var
          · subst hi; simp [upd, hpq]
          · by_cases hi' : i = q.var
            · subst hi'; simp [upd, hi]
            · simp [upd, hi, hi']
      · rw [e1', e2']
    · rw [e1, e2]

theorem run_ok : ∀ (ops : List (Op α)) {s : St α} {own : Own α} {vs : List (Option (List α))}, Inv s own vs →
    (∀ op ∈ ops, boxLegal op) →
    match boxRun vs ops with
    | .ok vs' => ∃ s' own', run s ops = .ok s' ∧ Inv s' own' vs'
    | .error e => run s ops = .error e
  | [], s, own, vs, I, _ => ⟨s, own, rfl, I⟩
  | op :: r, s, own, vs, I, hl => by
    have h := exec_ok I op (hl op (by simp))
    unfold boxRun run
    simp only [bind, Except.bind]
    rcases hb : boxStep vs op with e | vs'
    · rw [hb] at h
      dsimp only at h ⊢
      rw [h]
    · rw [hb] at h
      obtain ⟨s', own', h1, h2⟩ := h
      rw [h1]
      exact run_ok r h2 (fun o ho => hl o (by simp [ho]))

theorem inv_init : Inv (St.init : St α) (upd (fun _ => none) none (some [])) [] := by
  refine ⟨⟨?_, ?_, ?_, ?_, ?_, by simp [St.init], ?_⟩, by simp [upd], rfl, fun i => by simp [upd]⟩
  · intro i r hi
    by_cases h : i = none
    · subst h
      simp only [upd, if_true, Option.some.injEq] at hi
      subst hi
      exact ⟨none, rfl, rfl⟩
    · simp [upd, h] at hi
  · intro i hi
    cases i with
    | none => simp [upd] at hi
    | some i => simp [root, St.init]
  · intro i r hi
    by_cases h : i = none
    · subst h
      simp only [upd, if_true, Option.some.injEq] at hi
      subst hi
      simp
    · simp [upd, h] at hi
  · intro i j r r' b hi hj hb _
    by_cases h : i = none
    · subst h
      simp only [upd, if_true, Option.some.injEq] at hi
      subst hi
      simp at hb
    · simp [upd, h] at hi
  · intro b hb
    simp [St.blk, St.init] at hb
  · intro b
    simp [St.init]

/-- What is read through a path. -/
theorem Inv.read {s : St α} {own : Own α} {vs : List (Option (List α))} (I : Inv s own vs) (p : Path) :
    BoxM.read s p = (boxLink vs p).bind fun l =>
      match l[p.steps]? with
      | some x => .ok x
      | none => .error .die := by
  simp only [BoxM.read, bind, Except.bind]
  rcases I.link p with ⟨l, a, b, e1, e2, rfl, e4, e5, e6⟩ | ⟨e, e1, e2⟩
  · rw [e1, e5]
    dsimp only
    obtain ⟨h, hv, hp⟩ := I.rep.varAt e2
    obtain ⟨m, hp, hr⟩ := pre_append.1 hp
    rw [get_locOf hv hp, List.getElem?_append_right (by simp; omega)]
    dsimp only
    cases b with
    | nil =>
      have : m = none := hr
      subst this
      simp
    | cons y b =>
      obtain ⟨c, y⟩ := y
      obtain ⟨rfl, n, hc, hr⟩ := hr
      dsimp only
      rw [hc]
      simp [e4]
  · rw [e1, e2]

/-- Every block alive has one owner. -/
theorem Inv.owner {s : St α} {own : Own α} {vs : List (Option (List α))} (I : Inv s own vs) {b : Nat}
    (hb : (s.blk b).isSome) :
    ∃ p : Path, (locate s p.var p.steps >>= s.get) = .ok (some b) ∧
      ∀ p' : Path, (locate s p'.var p'.steps >>= s.get) = .ok (some b) → p' = p := by
  have key : ∀ p : Path, (locate s p.var p.steps >>= s.get) = .ok (some b) ↔
      ∃ a x c, own (some p.var) = some (a ++ (b, x) :: c) ∧ a.length = p.steps := by
    intro p
    simp only [bind, Except.bind]
    constructor
    · intro h
      rcases I.link p with ⟨l, a, c, e1, e2, rfl, e4, e5, e6⟩ | ⟨e, e1, e2⟩
      · rw [e5] at h
        dsimp only at h
        obtain ⟨h', hv, hp⟩ := I.rep.varAt e2
        obtain ⟨m, hp, hr⟩ := pre_append.1 hp
        rw [get_locOf hv hp] at h
        cases h
        cases c with
        | nil => cases hr
        | cons y c =>
          obtain ⟨b', y⟩ := y
          obtain ⟨q, _⟩ := hr
          cases q
          exact ⟨a, y, c, e2, e4⟩
      · rw [e2] at h
        cases h
    · rintro ⟨a, x, c, e2, e4⟩
      obtain ⟨h', hv, hp⟩ := I.rep.varAt e2
      obtain ⟨m, hp, hr⟩ := pre_append.1 hp
      rw [locate_ok hv _ e4 hp]
      dsimp only
      rw [get_locOf hv hp, hr.1]
  obtain ⟨i, r, h1, h2⟩ := I.rep.live b hb
  cases i with
  | none =>
    rw [I.tmp] at h1
    cases h1
    simp at h2
  | some i =>
    obtain ⟨y, hy, rfl⟩ := List.mem_map.1 h2
    obtain ⟨a, c, rfl⟩ := List.append_of_mem hy
    refine ⟨⟨i, a.length⟩, (key _).2 ⟨a, y.2, c, h1, rfl⟩, fun p' hp' => ?_⟩
    obtain ⟨a', x', c', k1, k2⟩ := (key _).1 hp'
    have hi := I.rep.uniq _ _ _ _ y.1 h1 k1 h2 (by simp [ids])
    have hi : i = p'.var := by simpa using hi
    subst hi
    rw [h1] at k1
    have k1 := Option.some.inj k1
    have hn := I.rep.nodup _ _ h1
    have : a.length = a'.length := by
      have n1 : (ids (a ++ y :: c))[a.length]? = some y.1 := by simp [ids]
      have n2 : (ids (a ++ y :: c))[a'.length]? = some y.1 := by rw [k1]; simp [ids]
      have l1 := (List.getElem?_eq_some_iff.1 n1)
      have l2 := (List.getElem?_eq_some_iff.1 n2)
      exact (List.Nodup.getElem_inj_iff hn).1 (l1.2.trans l2.2.symm)
    cases p'
    simp only [Path.mk.injEq, true_and]
    dsimp only at k2
    omega

end Rpp.BoxM
