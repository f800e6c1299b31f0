import Verif.Proof.NestedPath

/-!
# Proofs: programs with nested containers
-/

namespace Rpp.Nested
open Rpp

/-! ## Variables -/

/-- A variable in memory and as a value. -/
def VarRep (m : World) (v : Option (Option (Ty × Nat))) (s : Option (Option (Ty × Tree))) (f : List Nat) : Prop :=
  (v = some none ∧ s = some none ∧ f = []) ∨
    ∃ t b T g, v = some (some (t, b)) ∧ s = some (some (t, T)) ∧ f = b :: g ∧ Rep m t ⟨b, []⟩ T g

/-- All variables. -/
def Vars (m : World) (vs : List (Option (Ty × Nat))) (σ : Vals) (f : List Nat) : Prop :=
  vs.length = σ.length ∧ ∃ F, f = (List.range' 0 vs.length).flatMap F ∧ ∀ x, x < vs.length → VarRep m vs[x]? σ[x]? (F x)

theorem sep_env {f : List Nat} (h : f.Nodup) : Sep (fun _ => False) f := ⟨fun _ _ h _ => h, fun _ h => h.elim, h⟩

theorem varRep_frame {m m' : World} {v : Option (Option (Ty × Nat))} {s : Option (Option (Ty × Tree))} {f : List Nat} (h : VarRep m v s f)
    (hm : ∀ k, k.blk ∈ f → m' k = m k) : VarRep m' v s f := by
  rcases h with h | ⟨t, b, T, g, h1, h2, h3, h4⟩
  · exact .inl h
  · refine .inr ⟨t, b, T, g, h1, h2, h3, rep_frame h4 (fun k hk => hm k ?_) (fun k hk => hm k ?_)⟩
    · rw [h3, hk.1]; exact List.mem_cons_self
    · rw [h3]; exact List.mem_cons_of_mem _ hk

theorem env_foc {m : World} {vs : List (Option (Ty × Nat))} {σ : Vals} {f : List Nat} {x b : Nat} {t : Ty} (h : Vars m vs σ f) (hn : f.Nodup)
    (hx : vs[x]? = some (some (t, b))) : ∃ T g C, σ[x]? = some (some (t, T)) ∧
      Foc (fun m σ f => Vars m vs σ f) (fun _ => False) m f t ⟨b, []⟩ T g C (fun X => σ.set x (some (t, X))) := by
  obtain ⟨h1, F, h2, h3⟩ := h
  have hxl := (List.getElem?_eq_some_iff.1 hx).1
  rcases h3 x hxl with ⟨q, _⟩ | ⟨t', b', T, g, q1, q2, q3, q4⟩
  · rw [hx] at q; cases q
  rw [hx] at q1
  cases q1
  have hbx : b ∈ F x := by rw [q3]; exact List.mem_cons_self
  refine ⟨T, g, b :: (List.range' 0 vs.length).flatMap (upd F x []), q2, ?_, q4, .inr List.mem_cons_self, fun m2 X g' hm hX =>
    ⟨(List.range' 0 vs.length).flatMap (upd F x (b :: g')), ?_, by simpa using h1, _, rfl, fun y hy => ?_⟩⟩
  · rw [h2]
    refine (flat_one hxl).trans ?_
    rw [q3]
    exact List.perm_middle.symm
  · exact (flat_upd _ _ (Nat.zero_le _) (by omega)).trans List.perm_middle.symm
  · by_cases hyx : y = x
    · subst hyx
      refine .inr ⟨t, b, X, g', hx, List.getElem?_set_self (by omega), by simp [upd], hX⟩
    · have hu : upd F x (b :: g') y = F y := by unfold upd; rw [if_neg hyx]
      rw [hu, List.getElem?_set_ne (Ne.symm hyx)]
      rw [h2] at hn
      refine varRep_frame (h3 y hy) (fun k hk => hm k (.inr (List.mem_cons_of_mem _ (flat_mem_ne hy hyx hk))) (fun hu => ?_))
      exact flat_dis hn hy hxl hyx hk (by rw [hu.1]; exact hbx)

theorem env_foc2 {m : World} {vs : List (Option (Ty × Nat))} {σ : Vals} {f : List Nat} {x y b c : Nat} {t s : Ty} (h : Vars m vs σ f) (hn : f.Nodup)
    (hx : vs[x]? = some (some (t, b))) (hy : vs[y]? = some (some (s, c))) (hxy : x ≠ y) :
    ∃ T U g g' C, σ[x]? = some (some (t, T)) ∧ σ[y]? = some (some (s, U)) ∧
      Foc2 (fun m σ f => Vars m vs σ f) (fun _ => False) m f t ⟨b, []⟩ T g s ⟨c, []⟩ U g' C
        (fun X Y => (σ.set y (some (s, Y))).set x (some (t, X))) := by
  obtain ⟨h1, F, h2, h3⟩ := h
  have hxl := (List.getElem?_eq_some_iff.1 hx).1
  have hyl := (List.getElem?_eq_some_iff.1 hy).1
  rcases h3 x hxl with ⟨q, _⟩ | ⟨t', b', T, g, q1, q2, q3, q4⟩
  · rw [hx] at q; cases q
  rcases h3 y hyl with ⟨q, _⟩ | ⟨s', c', U, g', r1, r2, r3, r4⟩
  · rw [hy] at q; cases q
  rw [hx] at q1
  rw [hy] at r1
  cases q1
  cases r1
  have hbx : b ∈ F x := by rw [q3]; exact List.mem_cons_self
  have hcy : c ∈ F y := by rw [r3]; exact List.mem_cons_self
  have hn' := hn
  rw [h2] at hn'
  have hbc : b ≠ c := fun e => flat_dis hn' hxl hyl hxy hbx (e ▸ hcy)
  refine ⟨T, U, g, g', b :: c :: (List.range' 0 vs.length).flatMap (upd (upd F y []) x []), q2, r2, ?_, q4, r4, .inr List.mem_cons_self,
    .inr (List.mem_cons_of_mem _ List.mem_cons_self), rep_not_under hbc, rep_not_under (Ne.symm hbc), fun m2 X Y g1 g2 hm hX hY =>
    ⟨(List.range' 0 vs.length).flatMap (upd (upd F y (c :: g2)) x (b :: g1)), ?_, by simpa using h1, _, rfl, fun z hz => ?_⟩⟩
  · have := flat_two (F := F) (x := F x) (y := F y) hxl hyl hxy
    rw [upd_self, upd_self] at this
    rw [h2, List.perm_iff_count]
    intro z
    have a := this.count_eq z
    simp only [q3, r3, List.count_append, List.count_cons] at a ⊢
    omega
  · rw [List.perm_iff_count]
    intro z
    have a := (flat_two (F := F) (x := b :: g1) (y := c :: g2) hxl hyl hxy).count_eq z
    simp only [List.count_append, List.count_cons] at a ⊢
    omega
  · by_cases hzx : z = x
    · subst hzx
      exact .inr ⟨t, b, X, g1, hx, List.getElem?_set_self (by simp; omega), by simp [upd], hX⟩
    · rw [List.getElem?_set_ne (Ne.symm hzx)]
      by_cases hzy : z = y
      · subst hzy
        exact .inr ⟨s, c, Y, g2, hy, List.getElem?_set_self (by omega), by simp [upd, hzx], hY⟩
      · have hu : ∀ x' y', upd (upd F y x') x y' z = F z := fun x' y' => by unfold upd; rw [if_neg hzx, if_neg hzy]
        rw [hu, List.getElem?_set_ne (Ne.symm hzy)]
        refine varRep_frame (h3 z hz) (fun k hk => hm k (.inr (List.mem_cons_of_mem _ (List.mem_cons_of_mem _ (mem_flat hz (by rw [hu]; exact hk)))))
          (fun hu => ?_) (fun hu => ?_))
        · exact flat_dis hn' hz hxl hzx hk (by rw [hu.1]; exact hbx)
        · exact flat_dis hn' hz hyl hzy hk (by rw [hu.1]; exact hcy)

/-! ## Places -/

theorem typeOf_eq {m : World} {vs : List (Option (Ty × Nat))} {σ : Vals} {f : List Nat} (h : Vars m vs σ f) (p : Place) : typeOf σ p = typeOf vs p := by
  obtain ⟨h1, F, h2, h3⟩ := h
  unfold typeOf
  by_cases hx : p.var < vs.length
  · rcases h3 _ hx with ⟨a, b, _⟩ | ⟨t, b, T, g, a, c, _⟩
    · rw [a, b]
    · rw [a, c]
  · rw [List.getElem?_eq_none (by omega), List.getElem?_eq_none (by omega)]

theorem typeOf_some {β : Type} {vs : List (Option (Ty × β))} {p : Place} {t : Ty} (h : typeOf vs p = some t) :
    ∃ s b, vs[p.var]? = some (some (s, b)) ∧ s.at p.path = some t := by
  unfold typeOf at h
  split at h
  · exact ⟨_, _, by assumption, h⟩
  · cases h

/-- A place of a program. -/
theorem place_foc {s : St} {σ : Vals} {f : List Nat} {p : Place} {t : Ty} (h : Vars s.mem.obj s.vars σ f) (hn : f.Nodup)
    (hl : ∀ b ∈ f, b ∈ s.mem.live) (ht : typeOf s.vars p = some t) :
    (∀ e, look σ p = .error e → s.place p = .error e) ∧
    ∀ T, look σ p = .ok T → ∃ K f' C, s.place p = .ok K ∧
      Foc (fun m σ f => Vars m s.vars σ f) (fun _ => False) s.mem.obj f t K T f' C (fun X => put σ p X) := by
  obtain ⟨t0, b, hv, hat⟩ := typeOf_some ht
  obtain ⟨T, g, C, e1, e2⟩ := env_foc h hn hv
  obtain ⟨q1, q2⟩ := e2.sep (sep_env hn)
  have hb : b ∈ f := e2.perm.mem_iff.2 (List.mem_append_right _ (e2.inside.resolve_left id))
  obtain ⟨i1, i2⟩ := path_foc p.path e2.rep q2 q1 (hl _ hb) (fun c hc => hl _ (e2.perm.mem_iff.2 (List.mem_append_left _ hc))) hat
  simp only [look, St.place, e1, hv]
  refine ⟨i1, fun T' hT => ?_⟩
  obtain ⟨K, f', C', r1, r2⟩ := i2 T' hT
  refine ⟨K, f', C' ++ C, r1, ?_⟩
  have := e2.trans (sep_env hn) r2
  have hfun : (fun X => put σ p X) = fun X => σ.set p.var (some (t0, Tree.set X T p.path)) := by
    funext X
    simp only [put, e1]
  rw [hfun]
  exact this

/-- Two places of a program. -/
theorem place_foc2 {s : St} {σ : Vals} {f : List Nat} {p q : Place} {t u : Ty} {T U : Tree} (h : Vars s.mem.obj s.vars σ f) (hn : f.Nodup)
    (hl : ∀ b ∈ f, b ∈ s.mem.live) (ht : typeOf s.vars p = some t) (hu : typeOf s.vars q = some u) (hT : look σ p = .ok T) (hU : look σ q = .ok U)
    (np : ¬ (p.var = q.var ∧ p.path <+: q.path)) (nq : ¬ (p.var = q.var ∧ q.path <+: p.path)) :
    ∃ K L f1 f2 C, s.place p = .ok K ∧ s.place q = .ok L ∧
      Foc2 (fun m σ f => Vars m s.vars σ f) (fun _ => False) s.mem.obj f t K T f1 u L U f2 C (fun X Y => put (put σ q Y) p X) := by
  obtain ⟨t0, b, hv, hat⟩ := typeOf_some ht
  obtain ⟨u0, c, hw, hau⟩ := typeOf_some hu
  by_cases hpq : p.var = q.var
  · rw [← hpq] at hw
    rw [hv] at hw
    cases hw
    obtain ⟨V, g, C, e1, e2⟩ := env_foc h hn hv
    obtain ⟨q1, q2⟩ := e2.sep (sep_env hn)
    have hb : b ∈ f := e2.perm.mem_iff.2 (List.mem_append_right _ (e2.inside.resolve_left id))
    have e1q := e1
    have hvq := hv
    rw [hpq] at e1q hvq
    have hxl := (List.getElem?_eq_some_iff.1 e1q).1
    simp only [look, e1] at hT
    simp only [look, e1q] at hU
    obtain ⟨K, L, f1, f2, D, r1, r2, r3⟩ := path_foc2 p.path q.path e2.rep q2 q1 (hl _ hb)
      (fun c hc => hl _ (e2.perm.mem_iff.2 (List.mem_append_left _ hc))) hat hau hT hU (fun hh => np ⟨hpq, hh⟩) (fun hh => nq ⟨hpq, hh⟩)
    refine ⟨K, L, f1, f2, D ++ C, by simp only [St.place, hv]; exact r1, by simp only [St.place, hvq]; exact r2, ?_⟩
    have := e2.trans2 (sep_env hn) r3
    have hfun : (fun X Y => put (put σ q Y) p X) = fun X Y => σ.set p.var (some (t0, Tree.set X (Tree.set Y V q.path) p.path)) := by
      funext X Y
      simp only [put, e1q, hpq, List.getElem?_set_self hxl, List.set_set]
    rw [hfun]
    exact this
  · obtain ⟨V, V', g, g', C, e1, e2, e3⟩ := env_foc2 h hn hv hw hpq
    simp only [look, e1] at hT
    simp only [look, e2] at hU
    have hn' := e3.perm.nodup_iff.1 hn
    have m1 : ∀ b ∈ g, b ∈ s.mem.live := fun c hc => hl _ (e3.perm.mem_iff.2 (List.mem_append_left _ hc))
    have m2 : ∀ b ∈ g', b ∈ s.mem.live := fun c hc => hl _ (e3.perm.mem_iff.2 (List.mem_append_right _ (List.mem_append_left _ hc)))
    have m3 : ∀ b ∈ C, b ∈ s.mem.live := fun c hc => hl _ (e3.perm.mem_iff.2 (List.mem_append_right _ (List.mem_append_right _ hc)))
    have i1 := e3.inside1.resolve_left id
    have i2 := e3.inside2.resolve_left id
    obtain ⟨K, f1, D, r1, r2⟩ := (path_foc p.path e3.rep1 (List.nodup_append.1 hn').1 (fun hh => nodup_dis hn' hh (List.mem_append_right _ i1))
      (m3 _ i1) m1 hat).2 T hT
    obtain ⟨L, f2, D', r3, r4⟩ := (path_foc q.path e3.rep2 (List.nodup_append.1 (List.nodup_append.1 hn').2.1).1
      (fun hh => nodup_dis (List.nodup_append.1 hn').2.1 hh i2) (m3 _ i2) m2 hau).2 U hU
    refine ⟨K, L, f1, f2, D ++ (D' ++ C), by simp only [St.place, hv]; exact r1, by simp only [St.place, hw]; exact r3, ?_⟩
    have := e3.trans (sep_env hn) r2 r4
    have hfun : (fun X Y => put (put σ q Y) p X) =
        fun X Y => (σ.set q.var (some (u0, Tree.set Y V' q.path))).set p.var (some (t0, Tree.set X V p.path)) := by
      funext X Y
      simp only [put, e2, List.getElem?_set_ne (Ne.symm hpq), e1]
    rw [hfun]
    exact this

/-! ## Types -/

/-- The size of a type. -/
def Ty.size : Ty → Nat
  | .num => 0
  | .vec t => t.size + 1
  | .box t => t.size + 1
  | .opt t => t.size + 1
  | .pair a b => a.size + b.size + 1

theorem at_size : ∀ (p : List Acc) {t u : Ty}, t.at p = some u → u.size + p.length ≤ t.size
  | [], t, u, h => by
    have : t = u := by simpa [Ty.at] using h
    simp [this]
  | a :: p, t, u, h => by
    cases t <;> cases a <;> simp [Ty.at] at h
    all_goals
      have := at_size p h
      simp [Ty.size]
      omega

theorem at_append : ∀ (p r : List Acc) {t u v : Ty}, t.at p = some u → t.at (p ++ r) = some v → u.at r = some v
  | [], r, t, u, v, h, h' => by
    have : t = u := by simpa [Ty.at] using h
    subst this
    exact h'
  | a :: p, r, t, u, v, h, h' => by
    rw [at_cons] at h
    obtain ⟨t1, q1, q2⟩ := Option.bind_eq_some_iff.1 h
    rw [List.cons_append, at_cons, q1] at h'
    exact at_append p r q2 h'

/-- A part has a smaller type. -/
theorem prefix_size {β : Type} {vs : List (Option (Ty × β))} {p q : Place} {t u : Ty} (hp : typeOf vs p = some t) (hq : typeOf vs q = some u)
    (hv : p.var = q.var) (hpq : p.path <+: q.path) (hne : p ≠ q) : u.size < t.size := by
  obtain ⟨s, b, h1, h2⟩ := typeOf_some hp
  obtain ⟨s', b', h3, h4⟩ := typeOf_some hq
  rw [← hv, h1] at h3
  cases h3
  obtain ⟨r, hr⟩ := hpq
  rw [← hr] at h4
  have := at_size r (at_append _ _ h2 h4)
  have hr0 : r.length ≠ 0 := by
    intro h0
    have : r = [] := List.eq_nil_of_length_eq_zero h0
    subst this
    rw [List.append_nil] at hr
    exact hne (by cases p; cases q; simp_all)
  omega

theorem target_size (k : Kind) (t : Ty) : t.size ≤ (k.target t).size ∧ (k ≠ .assign → t.size < (k.target t).size) := by
  cases k <;> simp [Kind.target, Ty.size]

/-! ## Operations -/

/-- The memory of a program holds its values, and nothing else is allocated. -/
def Inv (s : St) (σ : Vals) : Prop :=
  ∃ f, Vars s.mem.obj s.vars σ f ∧ s.mem.live.Perm f ∧ s.mem.live.Nodup ∧ ∀ b ∈ s.mem.live, b < s.mem.next

/-- An operation on one place. -/
theorem one_ok {s : St} {σ : Vals} {p : Place} {t : Ty} {T X : Tree} {K : Loc} {f f' C : List Nat} (hp : s.mem.live.Perm f)
    (hn : s.mem.live.Nodup) (hF : Foc (fun m σ f => Vars m s.vars σ f) (fun _ => False) s.mem.obj f t K T f' C (fun X => put σ p X))
    {m' : Mem} {f2 : List Nat} (hr : Rep m'.obj t K X f2) (hl : m'.live.Perm (f2 ++ C)) (hn' : m'.live.Nodup) (hlt : ∀ b ∈ m'.live, b < m'.next)
    (hfr : ∀ k, ¬ Under K k → k.blk ∉ f' → m'.obj k = s.mem.obj k) : Inv ⟨s.vars, m'⟩ (put σ p X) := by
  have hs := sep_env (hp.nodup_iff.1 hn)
  obtain ⟨g, e1, e2⟩ := hF.back m'.obj X f2 (fun k hk hu => hfr k hu (hF.apart hs hk)) hr
  exact ⟨g, e2, hl.trans e1.symm, hn', hlt⟩

theorem inv_nil : Inv St.init [] := ⟨[], ⟨rfl, fun _ => [], rfl, fun x hx => by simp [St.init] at hx⟩, List.Perm.refl _, by simp [St.init], by simp [St.init]⟩

theorem decl_ok {s : St} {σ : Vals} (h : Inv s σ) (t : Ty) : ∃ s', step s (.decl t) = .ok s' ∧ Inv s' (σ ++ [some (t, dflt t)]) := by
  obtain ⟨f, ⟨h1, F, h2, h3⟩, hp, hn, hlt⟩ := h
  have hne : ∀ x ∈ s.mem.live, s.mem.next ≠ x := fun x hx e => by have := hlt x hx; omega
  obtain ⟨m', e1, e2, e3, e4, e5⟩ := defCtor_ok t ⟨s.mem.next, []⟩ { s.mem with live := s.mem.next :: s.mem.live, next := s.mem.next + 1 }
    List.mem_cons_self
  refine ⟨⟨s.vars ++ [some (t, s.mem.next)], m'⟩, by simp only [step, alloc_eq, e1, bind, Except.bind]; rfl,
    (List.range' 0 (s.vars.length + 1)).flatMap (upd F s.vars.length [s.mem.next]), ⟨by simp [h1], upd F s.vars.length [s.mem.next], by simp, fun x hx => ?_⟩,
    ?_, ?_, ?_⟩
  · by_cases hxl : x = s.vars.length
    · subst hxl
      refine .inr ⟨t, s.mem.next, dflt t, [], by simp, by simp [h1], by simp [upd], e2⟩
    · have hx' : x < s.vars.length := by simp at hx; omega
      have hu : upd F s.vars.length [s.mem.next] x = F x := by unfold upd; rw [if_neg hxl]
      rw [hu]
      dsimp only
      rw [List.getElem?_append_left hx', List.getElem?_append_left (by omega)]
      exact varRep_frame (h3 x hx') (fun k hk => e5 k (rep_not_under (hne _ (hp.mem_iff.2 (by rw [h2]; exact mem_flat hx' hk)))))
  · show m'.live.Perm _
    rw [e3, List.range'_1_concat, List.flatMap_append, flat_out _ _ (by omega), ← h2]
    simp only [Nat.zero_add, List.flatMap_cons, List.flatMap_nil, List.append_nil]
    have : upd F s.vars.length [s.mem.next] s.vars.length = [s.mem.next] := by simp [upd]
    rw [this]
    exact (List.Perm.cons _ hp).trans (List.perm_append_comm (l₁ := [s.mem.next]))
  · show m'.live.Nodup
    rw [e3]
    exact List.nodup_cons.2 ⟨fun hh => hne _ hh rfl, hn⟩
  · show ∀ b ∈ m'.live, b < m'.next
    rw [e3, e4]
    intro b hb
    rcases List.mem_cons.1 hb with rfl | hb
    · exact Nat.lt_succ_self _
    · exact Nat.lt_succ_of_lt (hlt _ hb)

theorem leave_ok {s : St} {σ : Vals} (h : Inv s σ) (x : Nat) : ∃ s', step s (.leave x) = .ok s' ∧ Inv s' (σ.set x none) := by
  have h0 := h
  obtain ⟨f, hv, hp, hn, hlt⟩ := h
  have hv' := hv
  obtain ⟨h1, F, h2, h3⟩ := hv'
  by_cases hxl : x < s.vars.length
  · rcases h3 x hxl with ⟨a, b, _⟩ | ⟨t, b, T, g, a, c, e, r⟩
    · refine ⟨s, by simp only [step, a], ?_⟩
      have : σ.set x none = σ := by
        apply List.ext_getElem?
        intro i
        by_cases hi : i = x
        · subst hi; rw [List.getElem?_set_self (by omega), b]
        · rw [List.getElem?_set_ne (Ne.symm hi)]
      rw [this]
      exact h0
    · have hnf := hp.nodup_iff.1 hn
      rw [h2] at hnf
      have hp1 : s.mem.live.Perm (g ++ (b :: (List.range' 0 s.vars.length).flatMap (upd F x []))) := by
        refine hp.trans ?_
        rw [h2]
        refine (flat_one hxl).trans ?_
        rw [e]
        exact List.perm_middle.symm
      obtain ⟨m1, e1, e2, e3, e4, e5⟩ := destroy_ok t ⟨b, []⟩ T g s.mem _ r hp1 hn List.mem_cons_self
      have hb1 : b ∈ m1.live := e3.mem_iff.2 List.mem_cons_self
      have hn1 : m1.live.Nodup := e3.nodup_iff.2 (nodup_right hp1 hn)
      refine ⟨⟨s.vars.set x none, { m1 with live := m1.live.erase b }⟩, by simp only [step, a, e1, free_ok hb1, bind, Except.bind]; rfl,
        (List.range' 0 s.vars.length).flatMap (upd F x []), ⟨by simp [h1], upd F x [], by simp, fun y hy => ?_⟩, ?_, hn1.erase b, ?_⟩
      · have hy' : y < s.vars.length := by simpa using hy
        by_cases hyx : y = x
        · subst hyx
          exact .inl ⟨List.getElem?_set_self hxl, List.getElem?_set_self (by omega), by simp [upd]⟩
        · have hu : upd F x [] y = F y := by unfold upd; rw [if_neg hyx]
          rw [hu]
          dsimp only
          rw [List.getElem?_set_ne (Ne.symm hyx), List.getElem?_set_ne (Ne.symm hyx)]
          refine varRep_frame (h3 y hy') (fun k hk => e5 k (fun hu => ?_) (fun hu => ?_))
          · exact flat_dis hnf hy' hxl hyx hk (by rw [hu.1, e]; exact List.mem_cons_self)
          · exact flat_dis hnf hy' hxl hyx hk (by rw [e]; exact List.mem_cons_of_mem _ hu)
      · have := e3.erase b
        simpa using this
      · intro c' hc
        show c' < m1.next
        rw [e4]
        exact hlt _ (hp1.mem_iff.2 (List.mem_append_right _ (e3.mem_iff.1 (List.mem_of_mem_erase hc))))
  · refine ⟨s, by simp only [step, List.getElem?_eq_none (Nat.le_of_not_lt hxl)], ?_⟩
    rw [List.set_eq_of_length_le (by omega)]
    exact h0

theorem clone_step {m : Mem} {t : Ty} {l src : Loc} {TP TQ : Tree} {fP fQ C : List Nat} (hP : Rep m.obj t l TP fP) (hQ : Rep m.obj t src TQ fQ)
    (hp : m.live.Perm (fP ++ C)) (hl : l.blk ∈ C) (hs : src.blk ∈ m.live) (hfQ : ∀ b ∈ fQ, b ∈ m.live) (hn : m.live.Nodup)
    (hlt : ∀ b ∈ m.live, b < m.next) :
    ∃ m' f2, (do let (tmp, m) := alloc m
                 let m ← cloneTo t ⟨tmp, []⟩ src m
                 let m ← assign t l ⟨tmp, []⟩ m
                 let m ← destroy t ⟨tmp, []⟩ m
                 free (some tmp) m) = .ok m' ∧ Rep m'.obj t l TQ f2 ∧ m'.live.Perm (f2 ++ C) ∧ m'.live.Nodup ∧ (∀ b ∈ m'.live, b < m'.next) ∧
      ∀ k, k.blk ∈ C → ¬ Under l k → m'.obj k = m.obj k := by
  have hne : ∀ x ∈ m.live, m.next ≠ x := fun x hx e => by have := hlt x hx; omega
  have hCl : ∀ x ∈ C, x ∈ m.live := fun x hx => hp.mem_iff.2 (List.mem_append_right _ hx)
  have hPl : ∀ x ∈ fP, x ∈ m.live := fun x hx => hp.mem_iff.2 (List.mem_append_left _ hx)
  obtain ⟨m1, g, e1, e2, e3, e4, e5, e6, e7, e8⟩ := clone_ok t ⟨m.next, []⟩ src TQ fQ { m with live := m.next :: m.live, next := m.next + 1 } hQ
    (List.mem_cons_of_mem _ hs) (fun b hb => List.mem_cons_of_mem _ (hfQ b hb)) List.mem_cons_self (hne _ hs) (fun h => hne _ (hfQ _ h) rfl)
    (fun b hb => by
      rcases List.mem_cons.1 hb with rfl | hb
      · exact Nat.lt_succ_self _
      · exact Nat.lt_succ_of_lt (hlt _ hb)) (List.nodup_cons.2 ⟨fun h => hne _ h rfl, hn⟩)
  have hold : ∀ k : Loc, k.blk ∈ m.live → m1.obj k = m.obj k := fun k hk => e8 k (rep_not_under (hne _ hk)) (Nat.lt_succ_of_lt (hlt _ hk))
  have hP1 : Rep m1.obj t l TP fP := rep_frame hP (fun k hk => hold k (by rw [hk.1]; exact hCl _ hl)) (fun k hk => hold k (hPl _ hk))
  have hp1 : m1.live.Perm (fP ++ (g ++ (m.next :: C))) := by
    refine e3.trans ?_
    rw [List.perm_iff_count]
    intro z
    have a := hp.count_eq z
    simp only [List.count_append, List.count_cons] at a ⊢
    omega
  obtain ⟨m2, f2, r1, r2, r3, r4, r5, r6, r7⟩ := assign_ok t l ⟨m.next, []⟩ TP TQ fP g (m.next :: C) m1 hP1 e2 hp1 e4 e6
    (List.mem_cons_of_mem _ hl) List.mem_cons_self (rep_not_under (Ne.symm (hne _ (hCl _ hl)))) (rep_not_under (hne _ (hCl _ hl)))
  obtain ⟨m3, q1, q2, q3, q4, q5⟩ := destroy_ok t ⟨m.next, []⟩ _ [] m2 (f2 ++ (m.next :: C)) r3 r4 r5 (List.mem_append_right _ List.mem_cons_self)
  have hb3 : m.next ∈ m3.live := q3.mem_iff.2 (List.mem_append_right _ List.mem_cons_self)
  have hn3 : m3.live.Nodup := q3.nodup_iff.2 (nodup_right (f := []) r4 r5)
  have hnx : m.next ∉ f2 := fun h => nodup_dis (q3.nodup_iff.1 hn3) h List.mem_cons_self
  refine ⟨{ m3 with live := m3.live.erase m.next }, f2, ?_, ?_, ?_, hn3.erase _, ?_, fun k hk hu => ?_⟩
  · simp only [alloc_eq, e1, r1, q1, bind, Except.bind]
    exact free_ok hb3
  · refine rep_frame r2 (fun k hk => q5 k (rep_not_under ?_) (by simp)) (fun k hk => q5 k (rep_not_under ?_) (by simp))
    · rw [hk.1]; exact hne _ (hCl _ hl)
    · exact fun h => hnx (by dsimp only at h; rw [h]; exact hk)
  · have := (q3.trans List.perm_middle).erase m.next
    simpa using this
  · intro b hb
    show b < m3.next
    rw [q4]
    exact r6 b (r4.mem_iff.2 (q3.mem_iff.1 (List.mem_of_mem_erase hb)))
  · show m3.obj k = m.obj k
    have hk' := hCl _ hk
    rw [q5 k (rep_not_under (hne _ hk')) (by simp), r7 k (List.mem_cons_of_mem _ hk) hu (rep_not_under (hne _ hk')), hold k hk']

theorem step_ok {s : St} {σ : Vals} {op : Op} (h : Inv s σ) (hop : op.legal) :
    (∀ e, valStep σ op = .error e → step s op = .error e) ∧ ∀ σ', valStep σ op = .ok σ' → ∃ s', step s op = .ok s' ∧ Inv s' σ' := by
  have h0 := h
  obtain ⟨f, hv, hp, hn, hlt⟩ := h
  have hnf := hp.nodup_iff.1 hn
  have hfl : ∀ b ∈ f, b ∈ s.mem.live := fun b hb => hp.mem_iff.2 hb
  have hskip : ∀ {r : Res Vals}, r = .ok σ → (∀ e, r = .error e → Except.ok s = .error e) ∧ ∀ σ', r = .ok σ' → ∃ s', Except.ok (ε := Err) s = .ok s' ∧ Inv s' σ' := by
    rintro r rfl
    exact ⟨fun e h => (by cases h), fun σ' h => by cases h; exact ⟨s, rfl, h0⟩⟩
  -- What a part and its context own.
  have hperm : ∀ {t K T f' C S}, Foc (fun m σ f => Vars m s.vars σ f) (fun _ => False) s.mem.obj f t K T f' C S → s.mem.live.Perm (f' ++ C) := fun hF =>
    hp.trans hF.perm
  cases op with
  | decl t =>
    refine ⟨fun e h => by simp [valStep] at h, fun σ' h => ?_⟩
    simp only [valStep] at h
    cases h
    exact decl_ok h0 t
  | leave x =>
    refine ⟨fun e h => by simp [valStep] at h, fun σ' h => ?_⟩
    simp only [valStep] at h
    cases h
    exact leave_ok h0 x
  | num p n =>
    simp only [valStep, step, typeOf_eq hv]
    by_cases ht : typeOf s.vars p = some .num
    · rw [if_pos ht, if_pos ht]
      obtain ⟨i1, i2⟩ := place_foc hv hnf hfl ht
      cases hg : look σ p with
      | error e =>
        rw [i1 e hg]
        exact ⟨fun e h => by cases h; rfl, fun σ' h => by cases h⟩
      | ok T =>
        obtain ⟨K, f', C, e1, e2⟩ := i2 T hg
        refine ⟨fun e h => (by cases h), fun σ' h => ?_⟩
        cases h
        have hK : K.blk ∈ C := e2.inside.resolve_left id
        have hKl : K.blk ∈ s.mem.live := (hperm e2).mem_iff.2 (List.mem_append_right _ hK)
        obtain ⟨hf', _⟩ := e2.rep
        refine ⟨⟨s.vars, s.mem.put K (.num n)⟩, by rw [e1]; simp only [bind, Except.bind, store_ok hKl]; rfl, ?_⟩
        refine one_ok (f2 := []) hp hn e2 ⟨rfl, n, rfl, put_self⟩ ?_ hn hlt (fun k hk _ => put_ne (ne_of_not_under hk))
        have := hperm e2
        rw [hf'] at this
        exact this
    · rw [if_neg ht, if_neg ht]
      exact hskip rfl
  | give k p q =>
    simp only [valStep, step, typeOf_eq hv]
    cases hq : typeOf s.vars q with
    | none => exact hskip rfl
    | some t =>
    dsimp only
    by_cases ht : typeOf s.vars p = some (k.target t)
    · rw [if_pos ht, if_pos ht]
      obtain ⟨i1, i2⟩ := place_foc hv hnf hfl ht
      obtain ⟨j1, j2⟩ := place_foc hv hnf hfl hq
      cases hg : look σ p with
      | error e =>
        rw [i1 e hg]
        exact ⟨fun e h => by cases h; rfl, fun σ' h => by cases h⟩
      | ok T =>
      cases hg' : look σ q with
      | error e =>
        obtain ⟨K, f', C, e1, e2⟩ := i2 T hg
        rw [e1, j1 e hg']
        exact ⟨fun e h => by cases h; rfl, fun σ' h => by cases h⟩
      | ok U =>
      by_cases hpq : p = q
      · subst hpq
        have hkt : k = .assign := by
          apply Classical.byContradiction
          intro hk
          have := (target_size k t).2 hk
          rw [hq] at ht
          have := congrArg Ty.size (Option.some.inj ht)
          omega
        subst hkt
        obtain ⟨K, f', C, e1, e2⟩ := i2 T hg
        refine ⟨fun e h => by simp [bind, Except.bind, pure, Except.pure] at h, fun σ' h => ?_⟩
        simp only [bind, Except.bind, if_true, pure, Except.pure] at h
        cases h
        have hK : K.blk ∈ C := e2.inside.resolve_left id
        obtain ⟨m', r1, r2, r3, r4, r5⟩ := assign_self t K T f' s.mem C e2.rep (hperm e2) hn hK
        refine ⟨⟨s.vars, m'⟩, by rw [e1]; simp only [bind, Except.bind, give, r1]; rfl, ?_⟩
        refine one_ok (f2 := []) hp hn e2 r2 r3 (r3.nodup_iff.2 (nodup_right (hperm e2) hn)) (fun b hb => ?_) r5
        rw [r4]
        exact hlt _ ((hperm e2).mem_iff.2 (List.mem_append_right _ (r3.mem_iff.1 hb)))
      · have np : ¬ (p.var = q.var ∧ p.path <+: q.path) := by
          rcases hop with hk | hk
          · rintro ⟨a, b⟩
            have := prefix_size ht hq a b hpq
            subst hk
            simp [Kind.target] at this
          · exact hk
        have nq : ¬ (p.var = q.var ∧ q.path <+: p.path) := by
          rintro ⟨a, b⟩
          have := prefix_size hq ht a.symm b (Ne.symm hpq)
          have := (target_size k t).1
          omega
        obtain ⟨K, L, f1, f2, C, e1, e2, e3⟩ := place_foc2 hv hnf hfl ht hq hg hg' np nq
        refine ⟨fun e h => by simp [bind, Except.bind, pure, Except.pure, if_neg hpq] at h, fun σ' h => ?_⟩
        simp only [bind, Except.bind, if_neg hpq, pure, Except.pure] at h
        cases h
        obtain ⟨m', g, r1, r2, r3, r4, r5, r6, r7⟩ := give_ok k t K L T U f1 f2 C s.mem e3.rep1 e3.rep2 (hp.trans e3.perm) hn hlt
          (e3.inside1.resolve_left id) (e3.inside2.resolve_left id) e3.apart1 e3.apart2
        obtain ⟨g', q1, q2⟩ := e3.back m'.obj _ _ g [] (fun j hj u1 u2 => r7 j (hj.resolve_left id) u1 u2) r2 r3
        refine ⟨⟨s.vars, m'⟩, by rw [e1, e2]; simp only [bind, Except.bind, r1]; rfl, g', q2, r4.trans ?_, r5, r6⟩
        exact q1.symm
    · rw [if_neg ht, if_neg ht]
      exact hskip rfl
  | clone p q =>
    simp only [valStep, step, typeOf_eq hv]
    cases hq : typeOf s.vars q with
    | none => exact hskip rfl
    | some t =>
    dsimp only
    by_cases ht : typeOf s.vars p = some t
    · rw [if_pos ht, if_pos ht]
      obtain ⟨i1, i2⟩ := place_foc hv hnf hfl ht
      obtain ⟨j1, j2⟩ := place_foc hv hnf hfl hq
      cases hg : look σ p with
      | error e =>
        rw [i1 e hg]
        exact ⟨fun e h => by cases h; rfl, fun σ' h => by cases h⟩
      | ok T =>
      obtain ⟨K, f', C, e1, e2⟩ := i2 T hg
      cases hg' : look σ q with
      | error e =>
        rw [e1, j1 e hg']
        exact ⟨fun e h => by cases h; rfl, fun σ' h => by cases h⟩
      | ok U =>
      obtain ⟨L, f'', C', e1', e2'⟩ := j2 U hg'
      refine ⟨fun e h => (by cases h), fun σ' h => ?_⟩
      cases h
      have hK : K.blk ∈ C := e2.inside.resolve_left id
      have hL : L.blk ∈ C' := e2'.inside.resolve_left id
      obtain ⟨m', g, r1, r2, r3, r4, r5, r6⟩ := clone_step e2.rep e2'.rep (hperm e2) hK ((hperm e2').mem_iff.2 (List.mem_append_right _ hL))
        (fun b hb => (hperm e2').mem_iff.2 (List.mem_append_left _ hb)) hn hlt
      refine ⟨⟨s.vars, m'⟩, ?_, ?_⟩
      · rw [e1, e1']
        simp only [alloc_eq, bind, Except.bind] at r1 ⊢
        revert r1
        cases cloneTo t ⟨s.mem.next, []⟩ L { s.mem with live := s.mem.next :: s.mem.live, next := s.mem.next + 1 } with
        | error e => intro r1; cases r1
        | ok m1 =>
          dsimp only
          cases assign t K ⟨s.mem.next, []⟩ m1 with
          | error e => intro r1; cases r1
          | ok m2 =>
            dsimp only
            cases destroy t ⟨s.mem.next, []⟩ m2 with
            | error e => intro r1; cases r1
            | ok m3 =>
              dsimp only
              intro r1
              rw [r1]
              rfl
      · obtain ⟨g', q1, q2⟩ := e2.back m'.obj U g (fun k hk hu => r6 k (hk.resolve_left id) hu) r2
        exact ⟨g', q2, r3.trans q1.symm, r4, r5⟩
    · rw [if_neg ht, if_neg ht]
      exact hskip rfl
  | pop p =>
    simp only [valStep, step, typeOf_eq hv]
    cases ht : typeOf s.vars p with
    | none => exact hskip rfl
    | some t =>
    cases t with
    | vec t =>
      dsimp only
      obtain ⟨i1, i2⟩ := place_foc hv hnf hfl ht
      cases hg : look σ p with
      | error e =>
        rw [i1 e hg]
        exact ⟨fun e h => by cases h; rfl, fun σ' h => by cases h⟩
      | ok T =>
      obtain ⟨K, f', C, e1, e2⟩ := i2 T hg
      have hK : K.blk ∈ C := e2.inside.resolve_left id
      have hv2 := e2.rep
      obtain ⟨ts, _, _, hT, _⟩ := hv2
      subst hT
      obtain ⟨r1, r2⟩ := pop_ok e2.rep (hperm e2) hn hK
      by_cases hts : ts = []
      · subst hts
        rw [e1]
        simp only [bind, Except.bind, r1 rfl, List.isEmpty_nil, if_true]
        exact ⟨fun e h => by cases h; rfl, fun σ' h => by cases h⟩
      · have hem : ¬ ts.isEmpty = true := by simpa using hts
        simp only [bind, Except.bind, if_neg hem, pure, Except.pure]
        refine ⟨fun e h => (by cases h), fun σ' h => ?_⟩
        cases h
        obtain ⟨m', g, q1, q2, q3, q4, q5, q6, q7⟩ := r2 hts
        refine ⟨⟨s.vars, m'⟩, by rw [e1]; simp only [q1], ?_⟩
        exact one_ok hp hn e2 q2 q3 q5 (fun b hb => by rw [q4]; exact hlt _ (q6 b hb)) q7
    | _ => exact hskip rfl
  | clear p =>
    simp only [valStep, step, typeOf_eq hv]
    cases ht : typeOf s.vars p with
    | none => exact hskip rfl
    | some t =>
    cases t with
    | vec t =>
      dsimp only
      obtain ⟨i1, i2⟩ := place_foc hv hnf hfl ht
      cases hg : look σ p with
      | error e =>
        rw [i1 e hg]
        exact ⟨fun e h => by cases h; rfl, fun σ' h => by cases h⟩
      | ok T =>
      obtain ⟨K, f', C, e1, e2⟩ := i2 T hg
      have hK : K.blk ∈ C := e2.inside.resolve_left id
      have hv2 := e2.rep
      obtain ⟨ts, _, _, hT, _⟩ := hv2
      subst hT
      refine ⟨fun e h => (by cases h), fun σ' h => ?_⟩
      cases h
      obtain ⟨m', g, q1, q2, q3, q4, q5, q6, q7⟩ := clear_ok e2.rep (hperm e2) hn hK
      refine ⟨⟨s.vars, m'⟩, by rw [e1]; simp only [bind, Except.bind, q1]; rfl, ?_⟩
      exact one_ok hp hn e2 q2 q3 q5 (fun b hb => by rw [q4]; exact hlt _ (q6 b hb)) q7
    | _ => exact hskip rfl

end Rpp.Nested
