import Verif.Model.Nested

/-!
# Proofs: constructors and destructors of nested containers

`Rep m t l T f`: at the address `l` there is an object of type `t` with the value `T`, and `f` are the blocks that it owns.
-/

namespace Rpp.Nested
open Rpp

/-- `k` is `l` or a part of it stored inside. -/
def Under (l k : Loc) : Prop := k.blk = l.blk ∧ l.path <+: k.path

theorem Under.refl (l : Loc) : Under l l := ⟨rfl, List.prefix_refl _⟩

theorem Under.trans {a b c : Loc} (h : Under a b) (g : Under b c) : Under a c := ⟨g.1.trans h.1, h.2.trans g.2⟩

theorem under_sub (l : Loc) (s : Step) : Under l (l.sub s) := ⟨rfl, List.prefix_append _ _⟩

theorem not_under_sub (l : Loc) (s : Step) : ¬ Under (l.sub s) l := by
  intro h
  have := h.2.length_le
  simp [Loc.sub] at this
  omega

theorem sub_disj {l k : Loc} {s s' : Step} (hs : s ≠ s') (h : Under (l.sub s) k) : ¬ Under (l.sub s') k := by
  intro g
  obtain ⟨x, hx⟩ := h.2
  obtain ⟨y, hy⟩ := g.2
  simp only [Loc.sub, List.append_assoc, List.singleton_append] at hx hy
  rw [← hy] at hx
  have := List.append_cancel_left hx
  simp only [List.cons.injEq] at this
  exact hs this.1

theorem under_of_sub_sub {a b : Loc} {s s' : Step} (h : Under (a.sub s) (b.sub s')) : Under a b := by
  refine ⟨h.1, List.prefix_of_prefix_length_le ((List.prefix_append _ _).trans h.2) (List.prefix_append b.path [s']) ?_⟩
  have := h.2.length_le
  simp [Loc.sub] at this
  exact this

theorem elem_disj {b i j : Nat} {k : Loc} (hij : i ≠ j) (h : Under ⟨b, [.elem i]⟩ k) : ¬ Under ⟨b, [.elem j]⟩ k := by
  have := @sub_disj ⟨b, []⟩ k (.elem i) (.elem j) (by simpa using hij)
  exact this h

theorem elem_ne {b i j : Nat} (hij : i ≠ j) : ¬ Under ⟨b, [.elem i]⟩ ⟨b, [.elem j]⟩ := fun h => elem_disj hij h (Under.refl _)

/-- Another footprint at one index. -/
def upd (F : Nat → List Nat) (i : Nat) (x : List Nat) : Nat → List Nat := fun j => if j = i then x else F j

theorem upd_self {F : Nat → List Nat} {i : Nat} : upd F i (F i) = F := by
  funext j; unfold upd; split <;> simp_all

theorem upd_upd {F : Nat → List Nat} {i : Nat} {x y : List Nat} : upd (upd F i x) i y = upd F i y := by
  funext j; unfold upd; split <;> rfl

theorem flat_out {F : Nat → List Nat} {i : Nat} {x : List Nat} : ∀ (n a : Nat), (i < a ∨ a + n ≤ i) →
    (List.range' a n).flatMap (upd F i x) = (List.range' a n).flatMap F
  | 0, _, _ => rfl
  | n + 1, a, h => by
    rw [List.range'_succ, List.flatMap_cons, List.flatMap_cons, flat_out n (a + 1) (by omega)]
    unfold upd
    rw [if_neg (by omega : ¬ a = i)]

theorem flat_upd {F : Nat → List Nat} {i : Nat} {x : List Nat} : ∀ (n a : Nat), a ≤ i → i < a + n →
    ((List.range' a n).flatMap (upd F i x)).Perm (x ++ (List.range' a n).flatMap (upd F i []))
  | 0, _, _, _ => by omega
  | n + 1, a, h, h' => by
    rw [List.range'_succ, List.flatMap_cons, List.flatMap_cons]
    by_cases e : a = i
    · subst e
      rw [flat_out (i := a) (x := x) n (a + 1) (by omega), flat_out (i := a) (x := []) n (a + 1) (by omega)]
      simp [upd]
    · have ih := flat_upd (F := F) (i := i) (x := x) n (a + 1) (by omega) (by omega)
      have e1 : ∀ y, upd F i y a = F a := fun y => by unfold upd; rw [if_neg e]
      rw [e1, e1]
      refine (List.Perm.append_left _ ih).trans ?_
      rw [← List.append_assoc, ← List.append_assoc]
      exact List.Perm.append_right _ List.perm_append_comm

theorem flat_one {F : Nat → List Nat} {i n : Nat} (h : i < n) :
    ((List.range' 0 n).flatMap F).Perm (F i ++ (List.range' 0 n).flatMap (upd F i [])) := by
  have := flat_upd (F := F) (i := i) (x := F i) n 0 (Nat.zero_le _) (by omega)
  rwa [upd_self] at this

/-- `l` is an object of type `t` and value `T`, owning the blocks `f`. -/
def Rep (m : Loc → Option Flat) : Ty → Loc → Tree → List Nat → Prop
  | .num, l, T, f => f = [] ∧ ∃ n, T = .num n ∧ m l = some (.num n)
  | .vec t, l, T, f => ∃ ts d cap, T = .vec ts ∧ m l = some (.vec d ts.length cap) ∧ ts.length ≤ cap ∧
      ((d = none ∧ cap = 0 ∧ f = []) ∨ ∃ b F, d = some b ∧ cap ≠ 0 ∧ f = b :: (List.range' 0 ts.length).flatMap F ∧
        ∀ i T, ts[i]? = some T → Rep m t ⟨b, [.elem i]⟩ T (F i))
  | .box t, l, T, f => (T = .box none ∧ m l = some (.box none) ∧ f = []) ∨
      ∃ T' b g, T = .box (some T') ∧ m l = some (.box (some b)) ∧ f = b :: g ∧ Rep m t ⟨b, []⟩ T' g
  | .opt t, l, T, f => (T = .opt none ∧ m l = some (.opt false) ∧ f = []) ∨
      ∃ T', T = .opt (some T') ∧ m l = some (.opt true) ∧ Rep m t (l.sub .val) T' f
  | .pair a b, l, T, f => ∃ x y g h, T = .pair x y ∧ f = g ++ h ∧ Rep m a (l.sub .fst) x g ∧ Rep m b (l.sub .snd) y h

/-- An object depends on its own storage and on that of the blocks it owns. -/
theorem rep_frame {m m' : Loc → Option Flat} : ∀ {t : Ty} {l : Loc} {T : Tree} {f : List Nat}, Rep m t l T f →
    (∀ k, Under l k → m' k = m k) → (∀ k, k.blk ∈ f → m' k = m k) → Rep m' t l T f := by
  intro t
  induction t with
  | num =>
    rintro l T f ⟨h1, n, h2, h3⟩ hu _
    exact ⟨h1, n, h2, by rw [hu _ (Under.refl _), h3]⟩
  | vec t ih =>
    rintro l T f ⟨ts, d, cap, h1, h2, h3, h4⟩ hu hf
    refine ⟨ts, d, cap, h1, by rw [hu _ (Under.refl _), h2], h3, ?_⟩
    rcases h4 with h4 | ⟨b, F, e1, e2, e3, e4⟩
    · exact .inl h4
    · refine .inr ⟨b, F, e1, e2, e3, fun i T hi => ih (e4 i T hi) (fun k hk => hf k ?_) (fun k hk => hf k ?_)⟩
      · rw [e3, hk.1]; exact List.mem_cons_self
      · rw [e3]
        refine List.mem_cons_of_mem _ (List.mem_flatMap.2 ⟨i, ?_, hk⟩)
        have := (List.getElem?_eq_some_iff.1 hi).1
        simp [List.mem_range']
        omega
  | box t ih =>
    intro l T f h hu hf
    rcases h with ⟨h1, h2, h3⟩ | ⟨T', b, g, h1, h2, h3, h4⟩
    · exact .inl ⟨h1, by rw [hu _ (Under.refl _), h2], h3⟩
    · refine .inr ⟨T', b, g, h1, by rw [hu _ (Under.refl _), h2], h3, ih h4 (fun k hk => hf k ?_) (fun k hk => hf k ?_)⟩
      · rw [h3, hk.1]; exact List.mem_cons_self
      · rw [h3]; exact List.mem_cons_of_mem _ hk
  | opt t ih =>
    intro l T f h hu hf
    rcases h with ⟨h1, h2, h3⟩ | ⟨T', h1, h2, h4⟩
    · exact .inl ⟨h1, by rw [hu _ (Under.refl _), h2], h3⟩
    · exact .inr ⟨T', h1, by rw [hu _ (Under.refl _), h2], ih h4 (fun k hk => hu k ((under_sub _ _).trans hk)) hf⟩
  | pair a b iha ihb =>
    rintro l T f ⟨x, y, g, h, e1, e2, e3, e4⟩ hu hf
    refine ⟨x, y, g, h, e1, e2, iha e3 (fun k hk => hu k ((under_sub _ _).trans hk)) (fun k hk => hf k ?_),
      ihb e4 (fun k hk => hu k ((under_sub _ _).trans hk)) (fun k hk => hf k ?_)⟩
    · rw [e2]; exact List.mem_append_left _ hk
    · rw [e2]; exact List.mem_append_right _ hk

theorem load_ok {l : Loc} {m : Mem} {f : Flat} (hl : l.blk ∈ m.live) (h : m.obj l = some f) : load l m = .ok f := by
  unfold load
  rw [if_pos hl, h]

/-- The memory after a store. -/
def Mem.put (m : Mem) (l : Loc) (f : Flat) : Mem := { m with obj := fun k => if k = l then some f else m.obj k }

theorem store_ok {l : Loc} {m : Mem} {f : Flat} (hl : l.blk ∈ m.live) : store l f m = .ok (m.put l f) := by
  unfold store
  rw [if_pos hl]
  rfl

theorem put_self {l : Loc} {m : Mem} {f : Flat} : (m.put l f).obj l = some f := by simp [Mem.put]

theorem put_ne {l k : Loc} {m : Mem} {f : Flat} (h : k ≠ l) : (m.put l f).obj k = m.obj k := by simp [Mem.put, h]

theorem ne_of_not_under {l k : Loc} (h : ¬ Under l k) : k ≠ l := fun e => h (e ▸ Under.refl _)

theorem free_ok {b : Nat} {m : Mem} (h : b ∈ m.live) : free (some b) m = .ok { m with live := m.live.erase b } := by
  unfold free
  dsimp only
  rw [if_pos h]

/-- Storing the fields of an object does not disturb one that is elsewhere. -/
theorem rep_put {m : Mem} {t : Ty} {l k : Loc} {T : Tree} {f : List Nat} {x : Flat} (h : Rep m.obj t l T f) (hu : ¬ Under l k)
    (hk : k.blk ∉ f) : Rep (m.put k x).obj t l T f :=
  rep_frame h (fun j hj => put_ne fun e => hu (e ▸ hj)) (fun j hj => put_ne fun e => hk (e ▸ hj))

/-! ## Destructors -/

/-- What `destroy t` does. -/
def DestroyOk (t : Ty) : Prop := ∀ (l : Loc) (T : Tree) (f : List Nat) (m : Mem) (R : List Nat), Rep m.obj t l T f → m.live.Perm (f ++ R) →
  m.live.Nodup → l.blk ∈ R → ∃ m', destroy t l m = .ok m' ∧ Rep m'.obj t l (emptied t T) [] ∧ m'.live.Perm R ∧ m'.next = m.next ∧
    ∀ k, ¬ Under l k → k.blk ∉ f → m'.obj k = m.obj k

theorem nodup_dis {α : Type} {f R : List α} (h : (f ++ R).Nodup) {x : α} (hx : x ∈ f) (hy : x ∈ R) : False :=
  (List.nodup_append.1 h).2.2 x hx x hy rfl

theorem not_mem_left {α : Type} {x : α} {f R l : List α} (hp : l.Perm (f ++ R)) (hn : l.Nodup) (hx : x ∈ R) : x ∉ f := fun h =>
  nodup_dis (hp.nodup_iff.1 hn) h hx

theorem nodup_right {α : Type} {f R l : List α} (hp : l.Perm (f ++ R)) (hn : l.Nodup) : R.Nodup :=
  (List.nodup_append.1 (hp.nodup_iff.1 hn)).2.1

theorem destroy_loop {t : Ty} (hd : DestroyOk t) {b : Nat} {F : Nat → List Nat} : ∀ (n i : Nat) (m : Mem) (R : List Nat),
    (∀ j, i ≤ j → j < i + n → ∃ T, Rep m.obj t ⟨b, [.elem j]⟩ T (F j)) → m.live.Perm ((List.range' i n).flatMap F ++ R) → m.live.Nodup →
    b ∈ R → ∃ m', loop (fun i m => do let e ← elemAt (some b) i; destroy t e m) n i m = .ok m' ∧ m'.live.Perm R ∧ m'.next = m.next ∧
      ∀ k, k.blk ≠ b → k.blk ∉ (List.range' i n).flatMap F → m'.obj k = m.obj k
  | 0, i, m, R, _, hp, _, _ => ⟨m, rfl, by simpa using hp, rfl, fun _ _ _ => rfl⟩
  | n + 1, i, m, R, hr, hp, hn, hb => by
    rw [List.range'_succ, List.flatMap_cons, List.append_assoc] at hp
    obtain ⟨T, hT⟩ := hr i (Nat.le_refl _) (by omega)
    obtain ⟨m1, e1, _, e3, e4, e5⟩ := hd ⟨b, [.elem i]⟩ T (F i) m _ hT hp hn (List.mem_append_right _ hb)
    have hn1 : m1.live.Nodup := e3.nodup_iff.2 (nodup_right hp hn)
    have hdis : ∀ {x}, x ∈ _ → x ∈ _ → False := nodup_dis (hp.nodup_iff.1 hn)
    obtain ⟨m2, g1, g3, g4, g5⟩ := destroy_loop hd n (i + 1) m1 R (fun j h1 h2 => by
      obtain ⟨T', hT'⟩ := hr j (by omega) (by omega)
      have hmem : ∀ x, x ∈ F j → x ∈ (List.range' (i + 1) n).flatMap F := fun x hx =>
        List.mem_flatMap.2 ⟨j, by simp [List.mem_range']; exact ⟨j - (i + 1), by omega, by omega⟩, hx⟩
      refine ⟨T', rep_frame hT' (fun k hk => e5 k (elem_disj (by omega) hk) ?_) (fun k hk => e5 k (fun hu => ?_) ?_)⟩
      · rw [hk.1]
        exact fun h => hdis h (List.mem_append_right _ hb)
      · have h1 : k.blk = b := hu.1
        have hq : b ∈ (List.range' (i + 1) n).flatMap F := h1 ▸ hmem _ hk
        exact not_mem_left (by simpa using e3) hn1 hb hq
      · exact fun h => hdis h (List.mem_append_left _ (hmem _ hk))) e3 hn1 hb
    refine ⟨m2, ?_, g3, g4.trans e4, fun k h1 h2 => ?_⟩
    · simp only [loop, elemAt, bind, Except.bind]
      rw [e1]
      exact g1
    · rw [List.range'_succ, List.flatMap_cons, List.mem_append, not_or] at h2
      rw [g5 k h1 h2.2, e5 k (fun hu => h1 hu.1) h2.1]

theorem destroy_ok : ∀ t, DestroyOk t := by
  intro t
  induction t with
  | num =>
    rintro l T f m R ⟨h1, n, h2, h3⟩ hp hn hl
    subst h1 h2
    exact ⟨m, rfl, ⟨rfl, n, rfl, h3⟩, by simpa using hp, rfl, fun _ _ _ => rfl⟩
  | vec t ih =>
    rintro l T f m R ⟨ts, d, cap, h1, h2, h3, h4⟩ hp hn hl
    have hlive : l.blk ∈ m.live := hp.mem_iff.2 (List.mem_append_right _ hl)
    unfold destroy
    rw [load_ok hlive h2]
    simp only [bind, Except.bind]
    rcases h4 with ⟨e1, e2, e3⟩ | ⟨b, F, e1, e2, e3, e4⟩
    · have hz : ts.length = 0 := by omega
      rw [hz, e1]
      simp only [loop, free]
      rw [store_ok hlive]
      refine ⟨_, rfl, ⟨[], none, 0, by simp [emptied], put_self, by simp, .inl ⟨rfl, rfl, rfl⟩⟩, ?_, rfl, fun k hk _ =>
        put_ne (ne_of_not_under hk)⟩
      rw [e3] at hp
      simpa [Mem.put] using hp
    · rw [e1]
      have hp' : m.live.Perm ((List.range' 0 ts.length).flatMap F ++ (b :: R)) := by
        rw [e3] at hp
        exact hp.trans (by simpa using List.perm_middle.symm)
      obtain ⟨m1, g1, g2, g3, g4⟩ := destroy_loop ih ts.length 0 m (b :: R) (fun j _ hj => by
        rw [Nat.zero_add] at hj
        exact ⟨_, e4 j ts[j] (List.getElem?_eq_getElem hj)⟩) hp' hn List.mem_cons_self
      have hbl : b ∈ m1.live := g2.mem_iff.2 List.mem_cons_self
      have hbr : l.blk ≠ b := by
        intro e
        have := nodup_right hp' hn
        rw [List.nodup_cons] at this
        exact this.1 (e ▸ hl)
      have g2' : (m1.live.erase b).Perm R := by
        have := g2.erase b
        simpa using this
      simp only [bind, Except.bind] at g1
      rw [g1]
      dsimp only
      rw [free_ok hbl]
      dsimp only
      rw [store_ok (by exact g2'.mem_iff.2 hl)]
      refine ⟨_, rfl, ⟨[], none, 0, by simp [emptied], put_self, by simp, .inl ⟨rfl, rfl, rfl⟩⟩, g2', g3, fun k hk hf => ?_⟩
      rw [put_ne (ne_of_not_under hk)]
      rw [e3, List.mem_cons, not_or] at hf
      exact g4 k hf.1 hf.2
  | box t ih =>
    intro l T f m R h hp hn hl
    have hlive : l.blk ∈ m.live := hp.mem_iff.2 (List.mem_append_right _ hl)
    unfold destroy
    rcases h with ⟨h1, h2, h3⟩ | ⟨T', b, g, h1, h2, h3, h4⟩
    · rw [load_ok hlive h2]
      subst h1 h3
      exact ⟨m, rfl, .inl ⟨by simp [emptied], h2, rfl⟩, by simpa using hp, rfl, fun _ _ _ => rfl⟩
    · rw [load_ok hlive h2]
      simp only [bind, Except.bind]
      have hp' : m.live.Perm (g ++ (b :: R)) := by
        rw [h3] at hp
        exact hp.trans (by simpa using List.perm_middle.symm)
      obtain ⟨m1, e1, _, e3, e4, e5⟩ := ih ⟨b, []⟩ T' g m (b :: R) h4 hp' hn List.mem_cons_self
      rw [e1]
      dsimp only
      rw [free_ok (e3.mem_iff.2 List.mem_cons_self)]
      dsimp only
      have e3' : (m1.live.erase b).Perm R := by
        have := e3.erase b
        simpa using this
      rw [store_ok (by exact e3'.mem_iff.2 hl)]
      refine ⟨_, rfl, .inl ⟨by simp [emptied], put_self, rfl⟩, e3', e4, fun k hk hf => ?_⟩
      rw [put_ne (ne_of_not_under hk)]
      rw [h3, List.mem_cons, not_or] at hf
      exact e5 k (fun hu => hf.1 hu.1) hf.2
  | opt t ih =>
    intro l T f m R h hp hn hl
    have hlive : l.blk ∈ m.live := hp.mem_iff.2 (List.mem_append_right _ hl)
    unfold destroy
    rcases h with ⟨h1, h2, h3⟩ | ⟨T', h1, h2, h4⟩
    · rw [load_ok hlive h2]
      simp only [bind, Except.bind, Bool.false_eq_true, if_false]
      rw [store_ok hlive]
      subst h1 h3
      exact ⟨_, rfl, .inl ⟨by simp [emptied], put_self, rfl⟩, by simpa [Mem.put] using hp, rfl, fun k hk _ => put_ne (ne_of_not_under hk)⟩
    · rw [load_ok hlive h2]
      simp only [bind, Except.bind, if_true]
      obtain ⟨m1, e1, _, e3, e4, e5⟩ := ih (l.sub .val) T' f m R h4 hp hn hl
      rw [e1]
      dsimp only
      rw [store_ok (e3.mem_iff.2 hl)]
      refine ⟨_, rfl, .inl ⟨by simp [emptied, h1], put_self, rfl⟩, e3, e4, fun k hk hf => ?_⟩
      rw [put_ne (ne_of_not_under hk)]
      exact e5 k (fun hu => hk ((under_sub _ _).trans hu)) hf
  | pair a b iha ihb =>
    rintro l T f m R ⟨x, y, g, h, e1, e2, e3, e4⟩ hp hn hl
    unfold destroy
    have hp1 : m.live.Perm (h ++ (g ++ R)) := by
      rw [e2] at hp
      refine hp.trans ?_
      rw [← List.append_assoc]
      exact List.Perm.append_right _ List.perm_append_comm
    have hdis : ∀ {x}, x ∈ _ → x ∈ _ → False := nodup_dis (hp1.nodup_iff.1 hn)
    obtain ⟨m1, g1, g2, g3, g4, g5⟩ := ihb (l.sub .snd) y h m (g ++ R) e4 hp1 hn (List.mem_append_right _ hl)
    have hn1 : m1.live.Nodup := g3.nodup_iff.2 (nodup_right hp1 hn)
    have e3' : Rep m1.obj a (l.sub .fst) x g := by
      refine rep_frame e3 (fun k hk => g5 k (sub_disj (by simp) hk) ?_) (fun k hk => g5 k (fun hu => ?_) ?_)
      · rw [hk.1]
        exact fun hh => hdis hh (List.mem_append_right _ hl)
      · have : l.blk ∈ g := by
          have h1 : k.blk = l.blk := hu.1
          exact h1 ▸ hk
        exact not_mem_left g3 hn1 hl this
      · exact fun hh => hdis hh (List.mem_append_left _ hk)
    obtain ⟨m2, r1, r2, r3, r4, r5⟩ := iha (l.sub .fst) x g m1 R e3' g3 hn1 hl
    refine ⟨m2, ?_, ⟨emptied a x, emptied b y, [], [], by rw [e1]; simp [emptied], rfl, r2, ?_⟩, r3, r4.trans g4, fun k hk hf => ?_⟩
    · simp only [bind, Except.bind]
      rw [g1]
      exact r1
    · refine rep_frame g2 (fun k hk => r5 k (sub_disj (by simp) hk) ?_) (fun k hk => by simp at hk)
      rw [hk.1]
      exact not_mem_left g3 hn1 hl
    · rw [e2, List.mem_append, not_or] at hf
      rw [r5 k (fun hu => hk ((under_sub _ _).trans hu)) hf.1, g5 k (fun hu => hk ((under_sub _ _).trans hu)) hf.2]

end Rpp.Nested
