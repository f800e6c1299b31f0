import Verif.Proof.Nested

/-!
# Proofs: moving and cloning nested containers
-/

namespace Rpp.Nested
open Rpp

/-! ## Move constructors -/

/-- What `moveCtor t` does. -/
def MoveOk (t : Ty) : Prop := ∀ (dst src : Loc) (T : Tree) (f : List Nat) (m : Mem), Rep m.obj t src T f → src.blk ∈ m.live → dst.blk ∈ m.live →
  ¬ Under dst src → ¬ Under src dst → dst.blk ∉ f → src.blk ∉ f → ∃ m', moveCtor t dst src m = .ok m' ∧ Rep m'.obj t dst T f ∧
    Rep m'.obj t src (moved t T) [] ∧ m'.live = m.live ∧ m'.next = m.next ∧ ∀ k, ¬ Under dst k → ¬ Under src k → m'.obj k = m.obj k

theorem move_ok : ∀ t, MoveOk t := by
  intro t
  induction t with
  | num =>
    rintro dst src T f m ⟨h1, n, h2, h3⟩ hs hd u1 u2 f1 f2
    subst h1 h2
    unfold moveCtor
    rw [load_ok hs h3]
    simp only [bind, Except.bind]
    rw [store_ok hd]
    exact ⟨_, rfl, ⟨rfl, n, rfl, put_self⟩, ⟨rfl, n, by simp [moved], by rw [put_ne (ne_of_not_under u1), h3]⟩, rfl, rfl, fun k hk _ =>
      put_ne (ne_of_not_under hk)⟩
  | vec t ih =>
    rintro dst src T f m ⟨ts, d, cap, h1, h2, h3, h4⟩ hs hd u1 u2 f1 f2
    unfold moveCtor
    rw [load_ok hs h2]
    simp only [bind, Except.bind]
    rw [store_ok hd]
    dsimp only
    rw [store_ok (by exact hs)]
    refine ⟨_, rfl, ⟨ts, d, cap, h1, by rw [put_ne (ne_of_not_under u2), put_self], h3, ?_⟩,
      ⟨[], none, 0, by simp [moved], put_self, by simp, .inl ⟨rfl, rfl, rfl⟩⟩, rfl, rfl, fun k hk hk' => by
        rw [put_ne (ne_of_not_under hk'), put_ne (ne_of_not_under hk)]⟩
    rcases h4 with h4 | ⟨b, F, e1, e2, e3, e4⟩
    · exact .inl h4
    · refine .inr ⟨b, F, e1, e2, e3, fun i T' hi => ?_⟩
      have hb : ∀ x : Loc, x.blk ∉ f → ¬ Under ⟨b, [.elem i]⟩ x := fun x hx hu => hx (by rw [e3, hu.1]; exact List.mem_cons_self)
      have hF : ∀ x, x ∈ F i → x ∈ f := fun x hx => by
        rw [e3]
        refine List.mem_cons_of_mem _ (List.mem_flatMap.2 ⟨i, ?_, hx⟩)
        have := (List.getElem?_eq_some_iff.1 hi).1
        simp [List.mem_range']
        omega
      exact rep_put (rep_put (e4 i T' hi) (hb _ f1) (fun h => f1 (hF _ h))) (hb _ f2) (fun h => f2 (hF _ h))
  | box t ih =>
    intro dst src T f m h hs hd u1 u2 f1 f2
    unfold moveCtor
    rcases h with ⟨h1, h2, h3⟩ | ⟨T', b, g, h1, h2, h3, h4⟩
    · rw [load_ok hs h2]
      simp only [bind, Except.bind]
      rw [store_ok hd]
      dsimp only
      rw [store_ok (by exact hs)]
      exact ⟨_, rfl, .inl ⟨h1, by rw [put_ne (ne_of_not_under u2), put_self], h3⟩, .inl ⟨by simp [moved], put_self, rfl⟩, rfl, rfl,
        fun k hk hk' => by rw [put_ne (ne_of_not_under hk'), put_ne (ne_of_not_under hk)]⟩
    · rw [load_ok hs h2]
      simp only [bind, Except.bind]
      rw [store_ok hd]
      dsimp only
      rw [store_ok (by exact hs)]
      refine ⟨_, rfl, .inr ⟨T', b, g, h1, by rw [put_ne (ne_of_not_under u2), put_self], h3, ?_⟩, .inl ⟨by simp [moved], put_self, rfl⟩, rfl, rfl,
        fun k hk hk' => by rw [put_ne (ne_of_not_under hk'), put_ne (ne_of_not_under hk)]⟩
      rw [h3, List.mem_cons, not_or] at f1 f2
      exact rep_put (rep_put h4 (fun hu => f1.1 hu.1) f1.2) (fun hu => f2.1 hu.1) f2.2
  | opt t ih =>
    intro dst src T f m h hs hd u1 u2 f1 f2
    unfold moveCtor
    rcases h with ⟨h1, h2, h3⟩ | ⟨T', h1, h2, h4⟩
    · rw [load_ok hs h2]
      simp only [bind, Except.bind]
      rw [store_ok hd]
      subst h1 h3
      exact ⟨_, rfl, .inl ⟨rfl, put_self, rfl⟩, .inl ⟨by simp [moved], by rw [put_ne (ne_of_not_under u1), h2], rfl⟩, rfl, rfl,
        fun k hk _ => put_ne (ne_of_not_under hk)⟩
    · rw [load_ok hs h2]
      simp only [bind, Except.bind]
      obtain ⟨m1, e1, e2, e3, e4, e5, e6⟩ := ih (dst.sub .val) (src.sub .val) T' f m h4 hs hd (fun h => u1 (under_of_sub_sub h))
        (fun h => u2 (under_of_sub_sub h)) f1 f2
      rw [e1]
      dsimp only
      rw [store_ok (by rw [e4]; exact hd)]
      refine ⟨_, rfl, .inr ⟨T', h1, put_self, rep_put e2 (not_under_sub _ _) f1⟩,
        .inr ⟨moved t T', by rw [h1]; simp [moved], ?_, rep_put e3 (fun h => u2 ((under_sub _ _).trans h)) (by simp)⟩, e4, e5, fun k hk hk' => ?_⟩
      · rw [put_ne (ne_of_not_under u1), e6 src (fun h => u1 ((under_sub _ _).trans h)) (not_under_sub _ _), h2]
      · rw [put_ne (ne_of_not_under hk)]
        exact e6 k (fun h => hk ((under_sub _ _).trans h)) (fun h => hk' ((under_sub _ _).trans h))
  | pair a b iha ihb =>
    rintro dst src T f m ⟨x, y, g, h, e1, e2, e3, e4⟩ hs hd u1 u2 f1 f2
    unfold moveCtor
    rw [e2, List.mem_append, not_or] at f1 f2
    obtain ⟨m1, g1, g2, g3, g4, g5, g6⟩ := iha (dst.sub .fst) (src.sub .fst) x g m e3 hs hd (fun h => u1 (under_of_sub_sub h))
      (fun h => u2 (under_of_sub_sub h)) f1.1 f2.1
    have hdd : ∀ {k} {s s' : Step}, Under (dst.sub s) k → ¬ Under (src.sub s') k := fun {k s s'} h h' => by
      have h1 := (under_sub dst s).trans h
      have h2 := (under_sub src s').trans h'
      rcases Nat.le_total dst.path.length src.path.length with hl | hl
      · exact u1 ⟨h2.1.symm.trans h1.1, List.prefix_of_prefix_length_le h1.2 h2.2 hl⟩
      · exact u2 ⟨h1.1.symm.trans h2.1, List.prefix_of_prefix_length_le h2.2 h1.2 hl⟩
    have e4' : Rep m1.obj b (src.sub .snd) y h := by
      refine rep_frame e4 (fun k hk => g6 k (fun h => hdd h hk) (sub_disj (by simp) hk)) (fun k hk => g6 k (fun hu => ?_) (fun hu => ?_))
      · exact f1.2 (by have h1 : k.blk = dst.blk := hu.1; exact h1 ▸ hk)
      · exact f2.2 (by have h1 : k.blk = src.blk := hu.1; exact h1 ▸ hk)
    obtain ⟨m2, r1, r2, r3, r4, r5, r6⟩ := ihb (dst.sub .snd) (src.sub .snd) y h m1 e4' (by rw [g4]; exact hs) (by rw [g4]; exact hd)
      (fun h => u1 (under_of_sub_sub h)) (fun h => u2 (under_of_sub_sub h)) f1.2 f2.2
    refine ⟨m2, ?_, ⟨x, y, g, h, e1, e2, ?_, r2⟩, ⟨moved a x, moved b y, [], [], by rw [e1]; simp [moved], rfl, ?_, r3⟩, r4.trans g4, r5.trans g5,
      fun k hk hk' => ?_⟩
    · simp only [bind, Except.bind]
      rw [g1]
      exact r1
    · refine rep_frame g2 (fun k hk => r6 k (sub_disj (by simp) hk) (hdd hk)) (fun k hk => r6 k (fun hu => ?_) (fun hu => ?_))
      · exact f1.1 (by have h1 : k.blk = dst.blk := hu.1; exact h1 ▸ hk)
      · exact f2.1 (by have h1 : k.blk = src.blk := hu.1; exact h1 ▸ hk)
    · exact rep_frame g3 (fun k hk => r6 k (fun h => hdd h hk) (sub_disj (by simp) hk)) (fun k hk => by simp at hk)
    · rw [r6 k (fun h => hk ((under_sub _ _).trans h)) (fun h => hk' ((under_sub _ _).trans h)),
        g6 k (fun h => hk ((under_sub _ _).trans h)) (fun h => hk' ((under_sub _ _).trans h))]

/-! ## Cloning -/

theorem rep_not_under {l k : Loc} (h : l.blk ≠ k.blk) : ¬ Under l k := fun hu => h hu.1.symm

/-- What `cloneTo t` does. -/
def CloneOk (t : Ty) : Prop := ∀ (dst src : Loc) (T : Tree) (f : List Nat) (m : Mem), Rep m.obj t src T f → src.blk ∈ m.live →
  (∀ b ∈ f, b ∈ m.live) → dst.blk ∈ m.live → dst.blk ≠ src.blk → dst.blk ∉ f → (∀ b ∈ m.live, b < m.next) → m.live.Nodup →
  ∃ m' g, cloneTo t dst src m = .ok m' ∧ Rep m'.obj t dst T g ∧ m'.live.Perm (g ++ m.live) ∧ m'.live.Nodup ∧ m.next ≤ m'.next ∧
    (∀ b ∈ m'.live, b < m'.next) ∧ (∀ b ∈ g, m.next ≤ b) ∧ ∀ k, ¬ Under dst k → k.blk < m.next → m'.obj k = m.obj k

/-- The memory with a new block. -/
theorem alloc_eq (m : Mem) : alloc m = (m.next, { m with live := m.next :: m.live, next := m.next + 1 }) := rfl

theorem clone_loop {t : Ty} (hc : CloneOk t) {b s : Nat} {F : Nat → List Nat} {ts : List Tree} (hbs : b ≠ s) : ∀ (n i : Nat) (m : Mem),
    i + n = ts.length → (∀ j T, i ≤ j → ts[j]? = some T → Rep m.obj t ⟨s, [.elem j]⟩ T (F j)) → s ∈ m.live → b ∈ m.live →
    (∀ j, i ≤ j → j < ts.length → ∀ x ∈ F j, x ∈ m.live) → (∀ j, i ≤ j → j < ts.length → b ∉ F j) →
    (∀ b ∈ m.live, b < m.next) → m.live.Nodup →
    ∃ m' G, loop (fun i m => do let e' ← elemAt (some s) i; cloneTo t ⟨b, [.elem i]⟩ e' m) n i m = .ok m' ∧
      (∀ j T, i ≤ j → ts[j]? = some T → Rep m'.obj t ⟨b, [.elem j]⟩ T (G j)) ∧ m'.live.Perm ((List.range' i n).flatMap G ++ m.live) ∧
      m'.live.Nodup ∧ m.next ≤ m'.next ∧ (∀ b ∈ m'.live, b < m'.next) ∧ (∀ x ∈ (List.range' i n).flatMap G, m.next ≤ x) ∧
      ∀ k, (∀ j, i ≤ j → ¬ Under ⟨b, [.elem j]⟩ k) → k.blk < m.next → m'.obj k = m.obj k
  | 0, i, m, hi, hr, hs, hb, hF, hbF, hlt, hn => by
    refine ⟨m, fun _ => [], rfl, fun j T h1 h2 => ?_, by simp, hn, Nat.le_refl _, hlt, by simp, fun _ _ _ => rfl⟩
    have := (List.getElem?_eq_some_iff.1 h2).1
    omega
  | n + 1, i, m, hi, hr, hs, hb, hF, hbF, hlt, hn => by
    have hil : i < ts.length := by omega
    obtain ⟨m1, g, e1, e2, e3, e4, e5, e6, e7, e8⟩ := hc ⟨b, [.elem i]⟩ ⟨s, [.elem i]⟩ ts[i] (F i) m
      (hr i _ (Nat.le_refl _) (List.getElem?_eq_getElem hil)) hs (hF i (Nat.le_refl _) hil) hb hbs (hbF i (Nat.le_refl _) hil) hlt hn
    have hlv : ∀ x, x ∈ m.live → x ∈ m1.live := fun x hx => e3.mem_iff.2 (List.mem_append_right _ hx)
    obtain ⟨m2, G, r1, r2, r3, r4, r5, r6, r7, r8⟩ := clone_loop hc hbs n (i + 1) m1 (by omega) (fun j T h1 h2 => by
        have hj := (List.getElem?_eq_some_iff.1 h2).1
        refine rep_frame (hr j T (by omega) h2) (fun k hk => e8 k ?_ ?_) (fun k hk => e8 k ?_ ?_)
        · exact rep_not_under (by rw [hk.1]; exact hbs)
        · rw [hk.1]; exact hlt _ hs
        · exact fun hu => hbF j (by omega) hj (by have h1 : k.blk = b := hu.1; exact h1 ▸ hk)
        · exact hlt _ (hF j (by omega) hj _ hk)) (hlv _ hs) (hlv _ hb) (fun j h1 h2 x hx => hlv _ (hF j (by omega) h2 x hx))
      (fun j h1 h2 => hbF j (by omega) h2) e6 e4
    have hGi : (List.range' (i + 1) n).flatMap (upd G i g) = (List.range' (i + 1) n).flatMap G := flat_out n (i + 1) (by omega)
    refine ⟨m2, upd G i g, ?_, fun j T h1 h2 => ?_, ?_, r4, Nat.le_trans e5 r5, r6, ?_, fun k hk hk' => ?_⟩
    · simp only [loop, elemAt, bind, Except.bind]
      rw [e1]
      exact r1
    · by_cases hj : j = i
      · subst hj
        have hT : T = ts[j] := by rw [List.getElem?_eq_getElem hil] at h2; exact (Option.some.inj h2).symm
        rw [hT]
        unfold upd
        rw [if_pos rfl]
        refine rep_frame e2 (fun k hk => r8 k (fun q hq => elem_disj (by omega) hk) ?_) (fun k hk => r8 k (fun q hq hu => ?_) ?_)
        · rw [hk.1]; exact e6 _ (hlv _ hb)
        · have h1 : k.blk = b := hu.1
          have := e7 _ hk
          have := hlt _ hb
          omega
        · exact e6 _ (e3.mem_iff.2 (List.mem_append_left _ hk))
      · unfold upd
        rw [if_neg hj]
        exact r2 j T (by omega) h2
    · rw [List.range'_succ, List.flatMap_cons, hGi]
      have hui : upd G i g i = g := by unfold upd; rw [if_pos rfl]
      rw [hui]
      refine r3.trans ((List.Perm.append_left _ e3).trans ?_)
      rw [← List.append_assoc]
      exact List.Perm.append_right _ List.perm_append_comm
    · intro x hx
      rw [List.range'_succ, List.flatMap_cons, hGi, List.mem_append] at hx
      have hui : upd G i g i = g := by unfold upd; rw [if_pos rfl]
      rw [hui] at hx
      rcases hx with hx | hx
      · exact e7 x hx
      · exact Nat.le_trans e5 (r7 x hx)
    · rw [r8 k (fun j hj => hk j (by omega)) (by omega), e8 k (hk i (Nat.le_refl _)) hk']

theorem clone_ok : ∀ t, CloneOk t := by
  intro t
  induction t with
  | num =>
    rintro dst src T f m ⟨h1, n, h2, h3⟩ hs hf hd hne hdf hlt hn
    unfold cloneTo
    rw [load_ok hs h3]
    simp only [bind, Except.bind]
    rw [store_ok hd]
    exact ⟨_, [], rfl, ⟨rfl, n, h2, put_self⟩, by simp [Mem.put], hn, Nat.le_refl _, hlt, by simp, fun k hk _ => put_ne (ne_of_not_under hk)⟩
  | vec t ih =>
    rintro dst src T f m ⟨ts, d, cap, h1, h2, h3, h4⟩ hs hf hd hne hdf hlt hn
    unfold cloneTo
    rw [load_ok hs h2]
    simp only [bind, Except.bind]
    rcases h4 with ⟨e1, e2, e3⟩ | ⟨s, F, e1, e2, e3, e4⟩
    · have hz : ts.length = 0 := by omega
      rw [if_pos e2, hz]
      simp only [loop]
      rw [store_ok hd]
      exact ⟨_, [], rfl, ⟨ts, none, cap, h1, by rw [put_self, hz], h3, .inl ⟨rfl, e2, rfl⟩⟩, by simp [Mem.put], hn, Nat.le_refl _, hlt, by simp,
        fun k hk _ => put_ne (ne_of_not_under hk)⟩
    · rw [if_neg e2, alloc_eq, e1]
      dsimp only
      have hsf : s ∈ f := by rw [e3]; exact List.mem_cons_self
      have hbs : m.next ≠ s := fun h => by have := hlt _ (hf _ hsf); omega
      have hFf : ∀ j, j < ts.length → ∀ x ∈ F j, x ∈ f := fun j hj x hx => by
        rw [e3]
        refine List.mem_cons_of_mem _ (List.mem_flatMap.2 ⟨j, ?_, hx⟩)
        simp [List.mem_range']
        omega
      obtain ⟨m2, G, r1, r2, r3, r4, r5, r6, r7, r8⟩ := clone_loop (b := m.next) (s := s) (F := F) (ts := ts) ih hbs ts.length 0
        { m with live := m.next :: m.live, next := m.next + 1 } (by omega) (fun j T _ hj => e4 j T hj)
        (List.mem_cons_of_mem _ (hf _ hsf)) List.mem_cons_self (fun j _ hj x hx => List.mem_cons_of_mem _ (hf _ (hFf j hj x hx)))
        (fun j _ hj h => by have := hlt _ (hf _ (hFf j hj _ h)); omega)
        (fun b hb => by
          rcases List.mem_cons.1 hb with rfl | hb
          · exact Nat.lt_succ_self _
          · exact Nat.lt_succ_of_lt (hlt _ hb))
        (List.nodup_cons.2 ⟨fun h => by have := hlt _ h; omega, hn⟩)
      simp only [bind, Except.bind] at r1
      rw [r1]
      dsimp only
      have hdm : dst.blk ∈ m2.live := r3.mem_iff.2 (List.mem_append_right _ (List.mem_cons_of_mem _ hd))
      rw [store_ok hdm]
      refine ⟨_, m.next :: (List.range' 0 ts.length).flatMap G, rfl, ⟨ts, some m.next, cap, h1, put_self, h3,
        .inr ⟨m.next, G, rfl, e2, rfl, fun i T' hi => rep_put (r2 i T' (Nat.zero_le _) hi) ?_ ?_⟩⟩, ?_, r4, Nat.le_trans (Nat.le_succ _) r5, r6, ?_,
        fun k hk hk' => ?_⟩
      · exact rep_not_under (by have := hlt _ hd; dsimp only; omega)
      · intro hx
        have := r7 dst.blk (List.mem_flatMap.2 ⟨i, by have := (List.getElem?_eq_some_iff.1 hi).1; simp [List.mem_range']; omega, hx⟩)
        dsimp only at this
        have := hlt _ hd
        omega
      · exact r3.trans (by simpa using List.perm_middle)
      · intro x hx
        rcases List.mem_cons.1 hx with rfl | hx
        · exact Nat.le_refl _
        · exact Nat.le_trans (Nat.le_succ _) (r7 x hx)
      · rw [put_ne (ne_of_not_under hk)]
        exact r8 k (fun j _ => rep_not_under (by dsimp only; omega)) (Nat.lt_succ_of_lt hk')
  | box t ih =>
    intro dst src T f m h hs hf hd hne hdf hlt hn
    unfold cloneTo
    rcases h with ⟨h1, h2, h3⟩ | ⟨T', s, g, h1, h2, h3, h4⟩
    · rw [load_ok hs h2]
      simp only [bind, Except.bind]
      rw [store_ok hd]
      exact ⟨_, [], rfl, .inl ⟨h1, put_self, rfl⟩, by simp [Mem.put], hn, Nat.le_refl _, hlt, by simp, fun k hk _ => put_ne (ne_of_not_under hk)⟩
    · rw [load_ok hs h2]
      simp only [bind, Except.bind]
      rw [alloc_eq]
      dsimp only
      rw [h3] at hf
      have hsl := hf s List.mem_cons_self
      obtain ⟨m2, G, r1, r2, r3, r4, r5, r6, r7, r8⟩ := ih ⟨m.next, []⟩ ⟨s, []⟩ T' g
        { m with live := m.next :: m.live, next := m.next + 1 } h4 (List.mem_cons_of_mem _ hsl)
        (fun x hx => List.mem_cons_of_mem _ (hf _ (List.mem_cons_of_mem _ hx))) List.mem_cons_self
        (fun h => by have := hlt _ hsl; dsimp only at h; omega)
        (fun h => by have := hlt _ (hf _ (List.mem_cons_of_mem _ h)); dsimp only at this; omega)
        (fun b hb => by
          rcases List.mem_cons.1 hb with rfl | hb
          · exact Nat.lt_succ_self _
          · exact Nat.lt_succ_of_lt (hlt _ hb))
        (List.nodup_cons.2 ⟨fun h => by have := hlt _ h; omega, hn⟩)
      rw [r1]
      dsimp only
      have hdm : dst.blk ∈ m2.live := r3.mem_iff.2 (List.mem_append_right _ (List.mem_cons_of_mem _ hd))
      rw [store_ok hdm]
      refine ⟨_, m.next :: G, rfl, .inr ⟨T', m.next, G, h1, put_self, rfl, rep_put r2 ?_ ?_⟩, ?_, r4, Nat.le_trans (Nat.le_succ _) r5, r6, ?_,
        fun k hk hk' => ?_⟩
      · exact rep_not_under (by have := hlt _ hd; dsimp only; omega)
      · intro hx
        have := r7 dst.blk hx
        dsimp only at this
        have := hlt _ hd
        omega
      · exact r3.trans (by simpa using List.perm_middle)
      · intro x hx
        rcases List.mem_cons.1 hx with rfl | hx
        · exact Nat.le_refl _
        · exact Nat.le_trans (Nat.le_succ _) (r7 x hx)
      · rw [put_ne (ne_of_not_under hk)]
        exact r8 k (rep_not_under (by dsimp only; omega)) (Nat.lt_succ_of_lt hk')
  | opt t ih =>
    intro dst src T f m h hs hf hd hne hdf hlt hn
    unfold cloneTo
    rcases h with ⟨h1, h2, h3⟩ | ⟨T', h1, h2, h4⟩
    · rw [load_ok hs h2]
      simp only [bind, Except.bind]
      rw [store_ok hd]
      exact ⟨_, [], rfl, .inl ⟨h1, put_self, rfl⟩, by simp [Mem.put], hn, Nat.le_refl _, hlt, by simp, fun k hk _ => put_ne (ne_of_not_under hk)⟩
    · rw [load_ok hs h2]
      simp only [bind, Except.bind]
      obtain ⟨m2, G, r1, r2, r3, r4, r5, r6, r7, r8⟩ := ih (dst.sub .val) (src.sub .val) T' f m h4 hs hf hd hne hdf hlt hn
      rw [r1]
      dsimp only
      have hdm : dst.blk ∈ m2.live := r3.mem_iff.2 (List.mem_append_right _ hd)
      rw [store_ok hdm]
      refine ⟨_, G, rfl, .inr ⟨T', h1, put_self, rep_put r2 (not_under_sub _ _) (fun hx => ?_)⟩, r3, r4, r5, r6, r7, fun k hk hk' => ?_⟩
      · have := r7 _ hx
        have := hlt _ hd
        omega
      · rw [put_ne (ne_of_not_under hk)]
        exact r8 k (fun h => hk ((under_sub _ _).trans h)) hk'
  | pair a b iha ihb =>
    rintro dst src T f m ⟨x, y, g, h, e1, e2, e3, e4⟩ hs hf hd hne hdf hlt hn
    unfold cloneTo
    rw [e2] at hf
    rw [e2, List.mem_append, not_or] at hdf
    obtain ⟨m1, G, r1, r2, r3, r4, r5, r6, r7, r8⟩ := iha (dst.sub .fst) (src.sub .fst) x g m e3 hs (fun x hx => hf x (List.mem_append_left _ hx))
      hd hne hdf.1 hlt hn
    have hlv : ∀ x, x ∈ m.live → x ∈ m1.live := fun x hx => r3.mem_iff.2 (List.mem_append_right _ hx)
    have e4' : Rep m1.obj b (src.sub .snd) y h := by
      refine rep_frame e4 (fun k hk => r8 k ?_ ?_) (fun k hk => r8 k ?_ ?_)
      · exact rep_not_under (by rw [hk.1]; exact hne)
      · rw [hk.1]; exact hlt _ hs
      · exact fun hu => hdf.2 (by have h1 : k.blk = dst.blk := hu.1; exact h1 ▸ hk)
      · exact hlt _ (hf _ (List.mem_append_right _ hk))
    obtain ⟨m2, H, q1, q2, q3, q4, q5, q6, q7, q8⟩ := ihb (dst.sub .snd) (src.sub .snd) y h m1 e4' (hlv _ hs)
      (fun x hx => hlv _ (hf x (List.mem_append_right _ hx))) (hlv _ hd) hne hdf.2 r6 r4
    refine ⟨m2, G ++ H, ?_, ⟨x, y, G, H, e1, rfl, ?_, q2⟩, ?_, q4, Nat.le_trans r5 q5, q6, ?_, fun k hk hk' => ?_⟩
    · simp only [bind, Except.bind]
      rw [r1]
      exact q1
    · refine rep_frame r2 (fun k hk => q8 k (sub_disj (by simp) hk) ?_) (fun k hk => q8 k (fun hu => ?_) ?_)
      · rw [hk.1]; exact r6 _ (hlv _ hd)
      · have h1 : k.blk = dst.blk := hu.1
        have := r7 _ hk
        have := hlt _ hd
        omega
      · exact r6 _ (r3.mem_iff.2 (List.mem_append_left _ hk))
    · refine q3.trans ((List.Perm.append_left _ r3).trans ?_)
      rw [← List.append_assoc]
      exact List.Perm.append_right _ List.perm_append_comm
    · intro x hx
      rcases List.mem_append.1 hx with hx | hx
      · exact r7 x hx
      · exact Nat.le_trans r5 (q7 x hx)
    · rw [q8 k (fun h => hk ((under_sub _ _).trans h)) (by omega), r8 k (fun h => hk ((under_sub _ _).trans h)) hk']

end Rpp.Nested
