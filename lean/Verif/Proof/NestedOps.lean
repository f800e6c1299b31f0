import Verif.Proof.NestedMove

/-!
# Proofs: the operations on nested containers
-/

namespace Rpp.Nested
open Rpp

theorem under_comparable {a b k : Loc} (h1 : Under a k) (h2 : Under b k) : Under a b ∨ Under b a := by
  rcases Nat.le_total a.path.length b.path.length with hl | hl
  · exact .inl ⟨h2.1.symm.trans h1.1, List.prefix_of_prefix_length_le h1.2 h2.2 hl⟩
  · exact .inr ⟨h1.1.symm.trans h2.1, List.prefix_of_prefix_length_le h2.2 h1.2 hl⟩

theorem not_under_both {a b k : Loc} (u1 : ¬ Under a b) (u2 : ¬ Under b a) (h : Under a k) : ¬ Under b k := fun h' =>
  (under_comparable h h').elim u1 u2

theorem not_under_sub_right {a b : Loc} {s : Step} (u1 : ¬ Under a b) (u2 : ¬ Under b a) : ¬ Under b (a.sub s) :=
  not_under_both u1 u2 (under_sub a s)

/-- What a move to a place does. -/
def GiveOk (op : Loc → Loc → Mem → Res Mem) (tp t : Ty) (res : Tree → Tree → Tree) : Prop :=
  ∀ (l src : Loc) (TP TQ : Tree) (fP fQ C : List Nat) (m : Mem), Rep m.obj tp l TP fP → Rep m.obj t src TQ fQ →
    m.live.Perm (fP ++ (fQ ++ C)) → m.live.Nodup → (∀ b ∈ m.live, b < m.next) → l.blk ∈ C → src.blk ∈ C → ¬ Under l src → ¬ Under src l →
    ∃ m' f2, op l src m = .ok m' ∧ Rep m'.obj tp l (res TP TQ) f2 ∧ Rep m'.obj t src (moved t TQ) [] ∧ m'.live.Perm (f2 ++ C) ∧
      m'.live.Nodup ∧ (∀ b ∈ m'.live, b < m'.next) ∧ ∀ j, j.blk ∈ C → ¬ Under l j → ¬ Under src j → m'.obj j = m.obj j

/-- Destroying the target leaves the source. -/
theorem destroy_first {tp t : Ty} {l src : Loc} {TP TQ : Tree} {fP fQ C : List Nat} {m : Mem} (hP : Rep m.obj tp l TP fP)
    (hQ : Rep m.obj t src TQ fQ) (hp : m.live.Perm (fP ++ (fQ ++ C))) (hn : m.live.Nodup) (hl : l.blk ∈ C) (hs : src.blk ∈ C)
    (u1 : ¬ Under l src) (u2 : ¬ Under src l) :
    ∃ m1, destroy tp l m = .ok m1 ∧ Rep m1.obj tp l (emptied tp TP) [] ∧ Rep m1.obj t src TQ fQ ∧ m1.live.Perm (fQ ++ C) ∧ m1.live.Nodup ∧
      m1.next = m.next ∧ ∀ j, j.blk ∈ C → ¬ Under l j → m1.obj j = m.obj j := by
  obtain ⟨m1, e1, e2, e3, e4, e5⟩ := destroy_ok tp l TP fP m (fQ ++ C) hP hp hn (List.mem_append_right _ hl)
  have hdis : ∀ {x}, x ∈ fP → x ∈ fQ ++ C → False := nodup_dis (hp.nodup_iff.1 hn)
  have hn1 := nodup_right hp hn
  refine ⟨m1, e1, e2, rep_frame hQ (fun k hk => e5 k (not_under_both u2 u1 hk) (fun h => hdis h (List.mem_append_right _ (by rw [hk.1]; exact hs))))
    (fun k hk => e5 k (fun hu => ?_) (fun h => hdis h (List.mem_append_left _ hk))), e3, e3.nodup_iff.2 hn1, e4, fun j hj hu =>
      e5 j hu (fun h => hdis h (List.mem_append_right _ hj))⟩
  exact nodup_dis hn1 hk (by rw [hu.1]; exact hl)

theorem lt_of_perm {a b : List Nat} {n : Nat} {f : List Nat} (hp : a.Perm (f ++ b)) (hlt : ∀ x ∈ a, x < n) : ∀ x ∈ b, x < n := fun x hx =>
  hlt x (hp.mem_iff.2 (List.mem_append_right _ hx))

theorem wrap_ok (t : Ty) : GiveOk (wrap t) (.opt t) t (fun _ T => .opt (some T)) := by
  intro l src TP TQ fP fQ C m hP hQ hp hn hlt hl hs u1 u2
  obtain ⟨m1, e1, e2, e3, e4, e5, e6, e7⟩ := destroy_first hP hQ hp hn hl hs u1 u2
  have hdis : ∀ {x}, x ∈ fQ → x ∈ C → False := nodup_dis (nodup_right hp hn)
  have hC : ∀ x ∈ C, x ∈ m1.live := fun x hx => e4.mem_iff.2 (List.mem_append_right _ hx)
  obtain ⟨m2, r1, r2, r3, r4, r5, r6⟩ := move_ok t (l.sub .val) src TQ fQ m1 e3 (hC _ hs) (hC _ hl)
    (fun h => u1 ((under_sub _ _).trans h)) (not_under_sub_right u1 u2) (fun h => hdis h hl) (fun h => hdis h hs)
  refine ⟨m2.put l (.opt true), fQ, ?_, .inr ⟨TQ, rfl, put_self, rep_put r2 (not_under_sub _ _) (fun h => hdis h hl)⟩,
    rep_put r3 u2 (by simp), ?_, ?_, ?_, fun j hj h1 h2 => ?_⟩
  · simp only [wrap, e1, r1, bind, Except.bind]
    exact store_ok (by rw [r4]; exact hC _ hl)
  · show m2.live.Perm _
    rw [r4]; exact e4
  · show m2.live.Nodup
    rw [r4]; exact e5
  · show ∀ b ∈ m2.live, b < m2.next
    rw [r4, r5, e6]
    exact fun b hb => lt_of_perm hp hlt b (e4.mem_iff.1 hb)
  · rw [put_ne (ne_of_not_under h1), r6 j (fun h => h1 ((under_sub _ _).trans h)) h2, e7 j hj h1]

theorem emplace_ok (t : Ty) : GiveOk (emplace t) (.box t) t (fun _ T => .box (some T)) := by
  intro l src TP TQ fP fQ C m hP hQ hp hn hlt hl hs u1 u2
  obtain ⟨m1, e1, e2, e3, e4, e5, e6, e7⟩ := destroy_first hP hQ hp hn hl hs u1 u2
  have hdis : ∀ {x}, x ∈ fQ → x ∈ C → False := nodup_dis (nodup_right hp hn)
  have hlt1 : ∀ b ∈ m1.live, b < m1.next := by
    rw [e6]
    exact fun b hb => lt_of_perm hp hlt b (e4.mem_iff.1 hb)
  have hC : ∀ x ∈ C, x ∈ m1.live := fun x hx => e4.mem_iff.2 (List.mem_append_right _ hx)
  have hne : ∀ x ∈ m1.live, m1.next ≠ x := fun x hx h => by have := hlt1 x hx; omega
  obtain ⟨m2, r1, r2, r3, r4, r5, r6⟩ := move_ok t ⟨m1.next, []⟩ src TQ fQ { m1 with live := m1.next :: m1.live, next := m1.next + 1 } e3
    (List.mem_cons_of_mem _ (hC _ hs)) List.mem_cons_self (rep_not_under (hne _ (hC _ hs))) (rep_not_under (Ne.symm (hne _ (hC _ hs))))
    (fun h => hne _ (e4.mem_iff.2 (List.mem_append_left _ h)) rfl) (fun h => hdis h hs)
  refine ⟨m2.put l (.box (some m1.next)), m1.next :: fQ, ?_, .inr ⟨TQ, m1.next, fQ, rfl, put_self, rfl,
    rep_put r2 (rep_not_under (hne _ (hC _ hl))) (fun h => hdis h hl)⟩, rep_put r3 u2 (by simp), ?_, ?_, ?_, fun j hj h1 h2 => ?_⟩
  · simp only [emplace, e1, alloc_eq, r1, bind, Except.bind]
    exact store_ok (by rw [r4]; exact List.mem_cons_of_mem _ (hC _ hl))
  · show m2.live.Perm _
    rw [r4]; exact List.Perm.cons _ e4
  · show m2.live.Nodup
    rw [r4]; exact List.nodup_cons.2 ⟨fun h => hne _ h rfl, e5⟩
  · show ∀ b ∈ m2.live, b < m2.next
    rw [r4, r5]
    intro b hb
    rcases List.mem_cons.1 hb with rfl | hb
    · exact Nat.lt_succ_self _
    · exact Nat.lt_succ_of_lt (hlt1 _ hb)
  · rw [put_ne (ne_of_not_under h1), r6 j (rep_not_under (hne _ (hC _ hj))) h2, e7 j hj h1]

/-! ## Assignment -/

theorem take_ok {t : Ty} : GiveOk (fun l src m => destroy t l m >>= moveCtor t l src) t t (fun _ T => T) := by
  intro l src TP TQ fP fQ C m hP hQ hp hn hlt hl hs u1 u2
  obtain ⟨m1, e1, e2, e3, e4, e5, e6, e7⟩ := destroy_first hP hQ hp hn hl hs u1 u2
  have hdis : ∀ {x}, x ∈ fQ → x ∈ C → False := nodup_dis (nodup_right hp hn)
  have hC : ∀ x ∈ C, x ∈ m1.live := fun x hx => e4.mem_iff.2 (List.mem_append_right _ hx)
  obtain ⟨m2, r1, r2, r3, r4, r5, r6⟩ := move_ok t l src TQ fQ m1 e3 (hC _ hs) (hC _ hl) u1 u2 (fun h => hdis h hl) (fun h => hdis h hs)
  refine ⟨m2, fQ, by simp only [e1, bind, Except.bind]; exact r1, r2, r3, by rw [r4]; exact e4, by rw [r4]; exact e5, ?_, fun j hj h1 h2 => ?_⟩
  · rw [r4, r5, e6]
    exact fun b hb => lt_of_perm hp hlt b (e4.mem_iff.1 hb)
  · rw [r6 j h1 h2, e7 j hj h1]

theorem assign_ok : ∀ t, GiveOk (assign t) t t (fun _ T => T) := by
  intro t
  induction t with
  | num => exact take_ok (t := .num)
  | vec t ih => exact take_ok (t := .vec t)
  | box t ih => exact take_ok (t := .box t)
  | opt t ih => exact take_ok (t := .opt t)
  | pair a b iha ihb =>
    rintro l src TP TQ fP fQ C m ⟨x, y, g, h, e1, e2, e3, e4⟩ ⟨x', y', g', h', e1', e2', e3', e4'⟩ hp hn hlt hl hs u1 u2
    have hp1 : m.live.Perm (g ++ (g' ++ (h ++ (h' ++ C)))) := by
      refine hp.trans ?_
      rw [e2, e2', List.perm_iff_count]
      intro z
      simp only [List.count_append]
      omega
    have hD : ∀ {z}, z ∈ C → z ∈ h ++ (h' ++ C) := fun hz => List.mem_append_right _ (List.mem_append_right _ hz)
    obtain ⟨m1, f2, r1, r2, r3, r4, r5, r6, r7⟩ := iha (l.sub .fst) (src.sub .fst) x x' g g' (h ++ (h' ++ C)) m e3 e3' hp1 hn hlt
      (hD hl) (hD hs) (fun h => u1 (under_of_sub_sub h)) (fun h => u2 (under_of_sub_sub h))
    have hnD : (h ++ (h' ++ C)).Nodup := nodup_right r4 r5
    have hnotC : ∀ {z}, z ∈ C → z ∉ h ∧ z ∉ h' := fun hz => ⟨fun hh => nodup_dis hnD hh (List.mem_append_right _ hz), fun hh =>
      nodup_dis (List.nodup_append.1 hnD).2.1 hh hz⟩
    have hcross : ∀ {k} {s s' : Step}, Under (l.sub s) k → ¬ Under (src.sub s') k := fun {k s s'} p q =>
      not_under_both u1 u2 ((under_sub _ _).trans p) ((under_sub _ _).trans q)
    have e4b : Rep m1.obj b (l.sub .snd) y h := by
      refine rep_frame e4 (fun k hk => r7 k ?_ (sub_disj (by simp) hk) (hcross hk)) (fun k hk => r7 k ?_ (fun hu => ?_) (fun hu => ?_))
      · rw [hk.1]; exact hD hl
      · exact List.mem_append_left _ hk
      · exact (hnotC hl).1 (by have q : k.blk = l.blk := hu.1; exact q ▸ hk)
      · exact (hnotC hs).1 (by have q : k.blk = src.blk := hu.1; exact q ▸ hk)
    have e4c : Rep m1.obj b (src.sub .snd) y' h' := by
      refine rep_frame e4' (fun k hk => r7 k ?_ (fun h => hcross h hk) (sub_disj (by simp) hk)) (fun k hk => r7 k ?_ (fun hu => ?_) (fun hu => ?_))
      · rw [hk.1]; exact hD hs
      · exact List.mem_append_right _ (List.mem_append_left _ hk)
      · exact (hnotC hl).2 (by have q : k.blk = l.blk := hu.1; exact q ▸ hk)
      · exact (hnotC hs).2 (by have q : k.blk = src.blk := hu.1; exact q ▸ hk)
    have hp2 : m1.live.Perm (h ++ (h' ++ (f2 ++ C))) := by
      refine r4.trans ?_
      rw [List.perm_iff_count]
      intro z
      simp only [List.count_append]
      omega
    obtain ⟨m2, f3, q1, q2, q3, q4, q5, q6, q7⟩ := ihb (l.sub .snd) (src.sub .snd) y y' h h' (f2 ++ C) m1 e4b e4c hp2 r5 r6
      (List.mem_append_right _ hl) (List.mem_append_right _ hs) (fun h => u1 (under_of_sub_sub h)) (fun h => u2 (under_of_sub_sub h))
    have hn2 : (f2 ++ C).Nodup := nodup_right q4 q5
    refine ⟨m2, f2 ++ f3, ?_, ⟨x', y', f2, f3, e1', rfl, ?_, q2⟩, ⟨moved a x', moved b y', [], [], by rw [e1']; simp [moved], rfl, ?_, q3⟩, ?_, q5,
      q6, fun j hj h1 h2 => ?_⟩
    · simp only [assign, r1, bind, Except.bind]
      exact q1
    · refine rep_frame r2 (fun k hk => q7 k ?_ (sub_disj (by simp) hk) (hcross hk)) (fun k hk => q7 k ?_ (fun hu => ?_) (fun hu => ?_))
      · rw [hk.1]; exact List.mem_append_right _ hl
      · exact List.mem_append_left _ hk
      · exact nodup_dis hn2 hk (by rw [hu.1]; exact hl)
      · exact nodup_dis hn2 hk (by rw [hu.1]; exact hs)
    · refine rep_frame r3 (fun k hk => q7 k ?_ (fun h => hcross h hk) (sub_disj (by simp) hk)) (fun k hk => by simp at hk)
      rw [hk.1]; exact List.mem_append_right _ hs
    · refine q4.trans ?_
      rw [List.perm_iff_count]
      intro z
      simp only [List.count_append]
      omega
    · rw [q7 j (List.mem_append_right _ hj) (fun h => h1 ((under_sub _ _).trans h)) (fun h => h2 ((under_sub _ _).trans h)),
        r7 j (hD hj) (fun h => h1 ((under_sub _ _).trans h)) (fun h => h2 ((under_sub _ _).trans h))]

/-- Assigning an object to itself empties it. -/
theorem assign_self : ∀ (t : Ty) (l : Loc) (T : Tree) (f : List Nat) (m : Mem) (R : List Nat), Rep m.obj t l T f → m.live.Perm (f ++ R) →
    m.live.Nodup → l.blk ∈ R → ∃ m', assign t l l m = .ok m' ∧ Rep m'.obj t l (emptied t T) [] ∧ m'.live.Perm R ∧ m'.next = m.next ∧
    ∀ k, ¬ Under l k → k.blk ∉ f → m'.obj k = m.obj k := by
  intro t
  induction t with
  | num =>
    rintro l T f m R ⟨h1, n, h2, h3⟩ hp hn hl
    subst h1 h2
    have hlive : l.blk ∈ m.live := hp.mem_iff.2 (List.mem_append_right _ hl)
    refine ⟨m.put l (.num n), ?_, ⟨rfl, n, by simp [emptied], put_self⟩, by simpa [Mem.put] using hp, rfl, fun k hk _ => put_ne (ne_of_not_under hk)⟩
    simp only [assign, moveCtor, load_ok hlive h3, bind, Except.bind]
    exact store_ok hlive
  | vec t ih =>
    intro l T f m R h hp hn hl
    obtain ⟨m1, e1, e2, e3, e4, e5⟩ := destroy_ok (.vec t) l T f m R h hp hn hl
    obtain ⟨ts, d, cap, g1, g2, g3, g4⟩ := e2
    have hlive : l.blk ∈ m1.live := e3.mem_iff.2 hl
    refine ⟨(m1.put l (.vec d ts.length cap)).put l (.vec none 0 0), ?_, ⟨[], none, 0, by simp [emptied], put_self, by simp, .inl ⟨rfl, rfl, rfl⟩⟩, e3, e4,
      fun k hk hf => by rw [put_ne (ne_of_not_under hk), put_ne (ne_of_not_under hk), e5 k hk hf]⟩
    simp only [assign, e1, moveCtor, load_ok hlive g2, store_ok hlive, bind, Except.bind]
    exact store_ok hlive
  | box t ih =>
    intro l T f m R h hp hn hl
    obtain ⟨m1, e1, e2, e3, e4, e5⟩ := destroy_ok (.box t) l T f m R h hp hn hl
    have hlive : l.blk ∈ m1.live := e3.mem_iff.2 hl
    rcases e2 with ⟨g1, g2, g3⟩ | ⟨T', b, g, g1, g2, g3, g4⟩
    · refine ⟨(m1.put l (.box none)).put l (.box none), ?_, .inl ⟨by simp [emptied], put_self, rfl⟩, e3, e4,
        fun k hk hf => by rw [put_ne (ne_of_not_under hk), put_ne (ne_of_not_under hk), e5 k hk hf]⟩
      simp only [assign, e1, moveCtor, load_ok hlive g2, store_ok hlive, bind, Except.bind]
      exact store_ok hlive
    · cases g3
  | opt t ih =>
    intro l T f m R h hp hn hl
    obtain ⟨m1, e1, e2, e3, e4, e5⟩ := destroy_ok (.opt t) l T f m R h hp hn hl
    have hlive : l.blk ∈ m1.live := e3.mem_iff.2 hl
    rcases e2 with ⟨g1, g2, g3⟩ | ⟨T', g1, g2, g4⟩
    · refine ⟨m1.put l (.opt false), ?_, .inl ⟨by simp [emptied], put_self, rfl⟩, e3, e4,
        fun k hk hf => by rw [put_ne (ne_of_not_under hk), e5 k hk hf]⟩
      simp only [assign, e1, moveCtor, load_ok hlive g2, bind, Except.bind]
      exact store_ok hlive
    · simp [emptied] at g1
  | pair a b iha ihb =>
    rintro l T f m R ⟨x, y, g, h, e1, e2, e3, e4⟩ hp hn hl
    have hp1 : m.live.Perm (g ++ (h ++ R)) := by rw [e2, List.append_assoc] at hp; exact hp
    have hdis : ∀ {x}, x ∈ _ → x ∈ _ → False := nodup_dis (hp1.nodup_iff.1 hn)
    obtain ⟨m1, g1, g2, g3, g4, g5⟩ := iha (l.sub .fst) x g m (h ++ R) e3 hp1 hn (List.mem_append_right _ hl)
    have hn1 : m1.live.Nodup := g3.nodup_iff.2 (nodup_right hp1 hn)
    have e4' : Rep m1.obj b (l.sub .snd) y h := by
      refine rep_frame e4 (fun k hk => g5 k (sub_disj (by simp) hk) ?_) (fun k hk => g5 k (fun hu => ?_) ?_)
      · rw [hk.1]
        exact fun hh => hdis hh (List.mem_append_right _ hl)
      · exact not_mem_left g3 hn1 hl (by have q : k.blk = l.blk := hu.1; exact q ▸ hk)
      · exact fun hh => hdis hh (List.mem_append_left _ hk)
    obtain ⟨m2, r1, r2, r3, r4, r5⟩ := ihb (l.sub .snd) y h m1 R e4' g3 hn1 hl
    refine ⟨m2, ?_, ⟨emptied a x, emptied b y, [], [], by rw [e1]; simp [emptied], rfl, ?_, r2⟩, r3, r4.trans g4, fun k hk hf => ?_⟩
    · simp only [assign, g1, bind, Except.bind]
      exact r1
    · refine rep_frame g2 (fun k hk => r5 k (sub_disj (by simp) hk) ?_) (fun k hk => by simp at hk)
      rw [hk.1]
      exact not_mem_left g3 hn1 hl
    · rw [e2, List.mem_append, not_or] at hf
      rw [r5 k (fun hu => hk ((under_sub _ _).trans hu)) hf.2, g5 k (fun hu => hk ((under_sub _ _).trans hu)) hf.1]

/-! ## `push` -/

theorem move_loop {t : Ty} {b o : Nat} {F : Nat → List Nat} {ts : List Tree} (hbo : b ≠ o) : ∀ (n i : Nat) (m : Mem),
    i + n = ts.length → (∀ j T, i ≤ j → ts[j]? = some T → Rep m.obj t ⟨o, [.elem j]⟩ T (F j)) → o ∈ m.live → b ∈ m.live →
    (∀ j, j < ts.length → o ∉ F j ∧ b ∉ F j) →
    ∃ m', loop (fun i m => moveCtor t ⟨b, [.elem i]⟩ ⟨o, [.elem i]⟩ m) n i m = .ok m' ∧
      (∀ j T, i ≤ j → ts[j]? = some T → Rep m'.obj t ⟨b, [.elem j]⟩ T (F j)) ∧ m'.live = m.live ∧ m'.next = m.next ∧
      ∀ k, (∀ j, i ≤ j → ¬ Under ⟨b, [.elem j]⟩ k) → k.blk ≠ o → m'.obj k = m.obj k
  | 0, i, m, hi, hr, ho, hb, hF => by
    refine ⟨m, rfl, fun j T h1 h2 => ?_, rfl, rfl, fun _ _ _ => rfl⟩
    have := (List.getElem?_eq_some_iff.1 h2).1
    omega
  | n + 1, i, m, hi, hr, ho, hb, hF => by
    have hil : i < ts.length := by omega
    obtain ⟨m1, e1, e2, _, e4, e5, e6⟩ := move_ok t ⟨b, [.elem i]⟩ ⟨o, [.elem i]⟩ ts[i] (F i) m
      (hr i _ (Nat.le_refl _) (List.getElem?_eq_getElem hil)) ho hb (rep_not_under hbo) (rep_not_under (Ne.symm hbo)) (hF i hil).2 (hF i hil).1
    obtain ⟨m2, r1, r2, r3, r4, r5⟩ := move_loop hbo n (i + 1) m1 (by omega) (fun j T h1 h2 => by
        have hj := (List.getElem?_eq_some_iff.1 h2).1
        refine rep_frame (hr j T (by omega) h2) (fun k hk => e6 k ?_ ?_) (fun k hk => e6 k ?_ ?_)
        · exact rep_not_under (by rw [hk.1]; exact hbo)
        · exact elem_disj (by omega) hk
        · exact fun hu => (hF j hj).2 (by have q : k.blk = b := hu.1; exact q ▸ hk)
        · exact fun hu => (hF j hj).1 (by have q : k.blk = o := hu.1; exact q ▸ hk)) (by rw [e4]; exact ho) (by rw [e4]; exact hb) hF
    refine ⟨m2, ?_, fun j T h1 h2 => ?_, r3.trans e4, r4.trans e5, fun k hk hk' => ?_⟩
    · simp only [loop, e1, bind, Except.bind]
      exact r1
    · by_cases hj : j = i
      · subst hj
        have hT : T = ts[j] := by rw [List.getElem?_eq_getElem hil] at h2; exact (Option.some.inj h2).symm
        rw [hT]
        refine rep_frame e2 (fun k hk => r5 k (fun q hq => elem_disj (by omega) hk) ?_) (fun k hk => r5 k (fun q hq hu => ?_) ?_)
        · rw [hk.1]; exact hbo
        · exact (hF j hil).2 (by have q : k.blk = b := hu.1; exact q ▸ hk)
        · exact fun q => (hF j hil).1 (q ▸ hk)
      · exact r2 j T (by omega) h2
    · rw [r5 k (fun j hj => hk j (by omega)) hk', e6 k (hk i (Nat.le_refl _)) (rep_not_under (Ne.symm hk'))]

theorem mem_flat {F : Nat → List Nat} {n i x : Nat} (hi : i < n) (hx : x ∈ F i) : x ∈ (List.range' 0 n).flatMap F :=
  List.mem_flatMap.2 ⟨i, by simp [List.mem_range']; omega, hx⟩

theorem grow_ok {t : Ty} {l : Loc} {ts : List Tree} {d : Option Nat} {cap : Nat} {fP R : List Nat} {m : Mem}
    (h4 : (d = none ∧ cap = 0 ∧ fP = []) ∨ ∃ b F, d = some b ∧ cap ≠ 0 ∧ fP = b :: (List.range' 0 ts.length).flatMap F ∧
        ∀ i T, ts[i]? = some T → Rep m.obj t ⟨b, [.elem i]⟩ T (F i)) (hfull : ts.length = cap)
    (hp : m.live.Perm (fP ++ R)) (hn : m.live.Nodup) (hlt : ∀ b ∈ m.live, b < m.next) (hl : l.blk ∈ R) :
    ∃ b F c m', grow t l d ts.length cap m = .ok (b, c, m') ∧ ts.length < c ∧
      (∀ i T, ts[i]? = some T → Rep m'.obj t ⟨b, [.elem i]⟩ T (F i)) ∧ m'.live.Perm ((b :: (List.range' 0 ts.length).flatMap F) ++ R) ∧
      m'.live.Nodup ∧ (∀ b ∈ m'.live, b < m'.next) ∧ ∀ j, j.blk ∈ R → ¬ Under l j → m'.obj j = m.obj j := by
  have hne : ∀ x ∈ m.live, m.next ≠ x := fun x hx h => by have := hlt x hx; omega
  have hR : ∀ x ∈ R, x ∈ m.live := fun x hx => hp.mem_iff.2 (List.mem_append_right _ hx)
  rcases h4 with ⟨e1, e2, e3⟩ | ⟨o, F, e1, e2, e3, e4⟩
  · have hts : ts = [] := List.eq_nil_of_length_eq_zero (by omega)
    subst hts e1 e2 e3
    refine ⟨m.next, fun _ => [], 8, (Mem.put { m with live := m.next :: m.live, next := m.next + 1 } l (.vec (some m.next) 0 8)), ?_, by simp, ?_,
      ?_, List.nodup_cons.2 ⟨fun h => hne _ h rfl, hn⟩, ?_, fun j _ hu => put_ne (ne_of_not_under hu)⟩
    · simp only [grow, alloc_eq, free, if_true, bind, Except.bind, List.length_nil]
      rw [store_ok (List.mem_cons_of_mem _ (hR _ hl))]
      rfl
    · intro i T hi; simp at hi
    · simpa [Mem.put] using hp
    · intro b hb
      rcases List.mem_cons.1 hb with rfl | hb
      · exact Nat.lt_succ_self _
      · exact Nat.lt_succ_of_lt (hlt _ hb)
  · subst e1
    have hol : o ∈ m.live := hp.mem_iff.2 (by rw [e3]; exact List.mem_append_left _ List.mem_cons_self)
    have hFl : ∀ j, j < ts.length → ∀ x ∈ F j, x ∈ fP := fun j hj x hx => by rw [e3]; exact List.mem_cons_of_mem _ (mem_flat hj hx)
    have hnP : fP.Nodup := (List.nodup_append.1 (hp.nodup_iff.1 hn)).1
    have hdis : ∀ {x}, x ∈ fP → x ∈ R → False := nodup_dis (hp.nodup_iff.1 hn)
    have hoF : ∀ j, j < ts.length → o ∉ F j := fun j hj h => by
      rw [e3, List.nodup_cons] at hnP
      exact hnP.1 (mem_flat hj h)
    obtain ⟨m1, r1, r2, r3, r4, r5⟩ := move_loop (t := t) (b := m.next) (o := o) (F := F) (ts := ts) (hne _ hol) ts.length 0
      { m with live := m.next :: m.live, next := m.next + 1 } (by omega) (fun j T _ hj => e4 j T hj) (List.mem_cons_of_mem _ hol) List.mem_cons_self
      (fun j hj => ⟨hoF j hj, fun h => hne _ (hp.mem_iff.2 (List.mem_append_left _ (hFl j hj _ h))) rfl⟩)
    have hp1 : m1.live.Perm (o :: (m.next :: (List.range' 0 ts.length).flatMap F ++ R)) := by
      rw [r3]
      refine (List.Perm.cons _ hp).trans ?_
      rw [e3, List.cons_append]
      exact List.Perm.swap _ _ _
    have ho1 : o ∈ m1.live := hp1.mem_iff.2 List.mem_cons_self
    have hp2 : (m1.live.erase o).Perm (m.next :: (List.range' 0 ts.length).flatMap F ++ R) := by
      have := hp1.erase o
      simpa using this
    have hn1 : m1.live.Nodup := by rw [r3]; exact List.nodup_cons.2 ⟨fun h => hne _ h rfl, hn⟩
    refine ⟨m.next, F, 2 * cap, Mem.put { m1 with live := m1.live.erase o } l (.vec (some m.next) ts.length (2 * cap)), ?_, by omega, fun i T hi => ?_,
      hp2, hn1.erase o, ?_, fun j hj hu => ?_⟩
    · simp only [grow, alloc_eq, r1, free_ok ho1, if_neg e2, bind, Except.bind]
      rw [store_ok (by exact hp2.mem_iff.2 (List.mem_append_right _ hl))]
      rfl
    · have hi' := (List.getElem?_eq_some_iff.1 hi).1
      exact rep_put (r2 i T (Nat.zero_le _) hi) (rep_not_under (hne _ (hR _ hl))) (fun h => hdis (hFl i hi' _ h) hl)
    · intro b hb
      have hb' : b ∈ m1.live := List.mem_of_mem_erase hb
      rw [r3] at hb'
      show b < m1.next
      rw [r4]
      rcases List.mem_cons.1 hb' with rfl | hb'
      · exact Nat.lt_succ_self _
      · exact Nat.lt_succ_of_lt (hlt _ hb')
    · rw [put_ne (ne_of_not_under hu)]
      show m1.obj j = m.obj j
      rw [r5 j (fun q _ => rep_not_under (hne _ (hR _ hj))) (fun h => hdis (by rw [e3]; exact List.mem_cons_self) (h ▸ hj))]

theorem push_room {t : Ty} {l src : Loc} {ts : List Tree} {b cap : Nat} {F : Nat → List Nat} {TQ : Tree} {fQ C : List Nat} {m : Mem}
    (h4 : ∀ i T, ts[i]? = some T → Rep m.obj t ⟨b, [.elem i]⟩ T (F i)) (hroom : ts.length < cap) (hQ : Rep m.obj t src TQ fQ)
    (hp : m.live.Perm ((b :: (List.range' 0 ts.length).flatMap F) ++ (fQ ++ C))) (hn : m.live.Nodup) (hl : l.blk ∈ C) (hs : src.blk ∈ C)
    (u2 : ¬ Under src l) :
    ∃ m' f2, (do let e ← elemAt (some b) ts.length
                 let m ← moveCtor t e src m
                 store l (.vec (some b) (ts.length + 1) cap) m) = .ok m' ∧ Rep m'.obj (.vec t) l (.vec (ts ++ [TQ])) f2 ∧
      Rep m'.obj t src (moved t TQ) [] ∧ m'.live.Perm (f2 ++ C) ∧ m'.live = m.live ∧ m'.next = m.next ∧
      ∀ j, j.blk ∈ C → ¬ Under l j → ¬ Under src j → m'.obj j = m.obj j := by
  have hC : ∀ x ∈ C, x ∈ m.live := fun x hx => hp.mem_iff.2 (List.mem_append_right _ (List.mem_append_right _ hx))
  have hbl : b ∈ m.live := hp.mem_iff.2 (List.mem_append_left _ List.mem_cons_self)
  have hdis : ∀ {x}, x ∈ _ → x ∈ _ → False := nodup_dis (hp.nodup_iff.1 hn)
  have hdis2 : ∀ {x}, x ∈ fQ → x ∈ C → False := nodup_dis (nodup_right hp hn)
  have hbC : ∀ x ∈ C, b ≠ x := fun x hx h => hdis List.mem_cons_self (List.mem_append_right _ (h ▸ hx))
  have hnb := (List.nodup_cons.1 (List.nodup_append.1 (hp.nodup_iff.1 hn)).1).1
  have hFC : ∀ {i}, i < ts.length → ∀ x ∈ C, x ∉ F i := fun hi x hx h => hdis (List.mem_cons_of_mem _ (mem_flat hi h)) (List.mem_append_right _ hx)
  obtain ⟨m1, r1, r2, r3, r4, r5, r6⟩ := move_ok t ⟨b, [.elem ts.length]⟩ src TQ fQ m hQ (hC _ hs) hbl (rep_not_under (hbC _ hs))
    (rep_not_under (Ne.symm (hbC _ hs))) (fun h => hdis List.mem_cons_self (List.mem_append_left _ h)) (fun h => hdis2 h hs)
  have hflat : (List.range' 0 (ts.length + 1)).flatMap (upd F ts.length fQ) = (List.range' 0 ts.length).flatMap F ++ fQ := by
    rw [List.range'_1_concat, List.flatMap_append, flat_out _ _ (by omega)]
    simp [upd]
  refine ⟨m1.put l (.vec (some b) (ts.length + 1) cap), b :: (List.range' 0 (ts.length + 1)).flatMap (upd F ts.length fQ), ?_,
    ⟨ts ++ [TQ], some b, cap, rfl, by rw [put_self]; simp, by simp; omega, .inr ⟨b, upd F ts.length fQ, rfl, by omega, by simp, fun i T hi => ?_⟩⟩,
    rep_put r3 u2 (by simp), ?_, r4, r5, fun j hj h1 h2 => ?_⟩
  · simp only [elemAt, r1, bind, Except.bind]
    exact store_ok (by rw [r4]; exact hC _ hl)
  · by_cases hi' : i = ts.length
    · subst hi'
      rw [List.getElem?_append_right (Nat.le_refl _), Nat.sub_self] at hi
      cases hi
      have : upd F ts.length fQ ts.length = fQ := by simp [upd]
      rw [this]
      exact rep_put r2 (rep_not_under (hbC _ hl)) (fun h => hdis2 h hl)
    · have hil : i < ts.length := by
        have := (List.getElem?_eq_some_iff.1 hi).1
        simp at this
        omega
      rw [List.getElem?_append_left hil] at hi
      have : upd F ts.length fQ i = F i := by simp [upd, hi']
      rw [this]
      refine rep_put (rep_frame (h4 i T hi) (fun k hk => r6 k ?_ ?_) (fun k hk => r6 k ?_ ?_)) (rep_not_under (hbC _ hl)) (hFC hil _ hl)
      · exact elem_disj hi' hk
      · exact rep_not_under (by rw [hk.1]; exact Ne.symm (hbC _ hs))
      · exact fun hu => hnb (mem_flat hil (by have q : k.blk = b := hu.1; exact q ▸ hk))
      · exact fun hu => hFC hil _ hs (by have q : k.blk = src.blk := hu.1; exact q ▸ hk)
  · show m1.live.Perm _
    rw [r4, hflat]
    simpa [List.append_assoc] using hp
  · rw [put_ne (ne_of_not_under h1), r6 j (rep_not_under (hbC _ hj)) h2]

theorem push_ok (t : Ty) : GiveOk (push t) (.vec t) t (fun x T => match x with | .vec l => .vec (l ++ [T]) | _ => T) := by
  rintro l src TP TQ fP fQ C m ⟨ts, d, cap, h1, h2, h3, h4⟩ hQ hp hn hlt hl hs u1 u2
  have hlive : l.blk ∈ m.live := hp.mem_iff.2 (List.mem_append_right _ (List.mem_append_right _ hl))
  subst h1
  dsimp only
  unfold push
  rw [load_ok hlive h2]
  by_cases hfull : ts.length = cap
  · obtain ⟨b, F, c, m1, e1, e2, e3, e4, e5, e6, e7⟩ := grow_ok (l := l) h4 hfull hp hn hlt (List.mem_append_right _ hl)
    have hdis2 : ∀ {x}, x ∈ fQ → x ∈ C → False := nodup_dis (nodup_right hp hn)
    have hQ1 : Rep m1.obj t src TQ fQ := by
      refine rep_frame hQ (fun k hk => e7 k (List.mem_append_right _ (by rw [hk.1]; exact hs)) (not_under_both u2 u1 hk)) (fun k hk =>
        e7 k (List.mem_append_left _ hk) (fun hu => hdis2 hk (by rw [hu.1]; exact hl)))
    obtain ⟨m2, f2, r1, r2, r3, r4, r5, r6, r7⟩ := push_room e3 e2 hQ1 e4 e5 hl hs u2
    refine ⟨m2, f2, ?_, r2, r3, r4, by rw [r5]; exact e5, by rw [r5, r6]; exact e6, fun j hj q1 q2 => ?_⟩
    · simp only [bind, Except.bind, if_pos hfull, e1] at r1 ⊢
      exact r1
    · rw [r7 j hj q1 q2, e7 j (List.mem_append_right _ hj) q1]
  · rcases h4 with ⟨_, e2, _⟩ | ⟨b, F, e1, e2, e3, e4⟩
    · omega
    · subst e1
      rw [e3] at hp
      obtain ⟨m2, f2, r1, r2, r3, r4, r5, r6, r7⟩ := push_room e4 (by omega : ts.length < cap) hQ hp hn hl hs u2
      refine ⟨m2, f2, ?_, r2, r3, r4, by rw [r5]; exact hn, by rw [r5, r6]; exact hlt, r7⟩
      simp only [bind, Except.bind, if_neg hfull] at r1 ⊢
      exact r1

theorem give_ok (k : Kind) (t : Ty) : GiveOk (give k t) (k.target t) t k.result := by
  cases k with
  | push =>
    rintro l src TP TQ fP fQ C m hP hQ
    have hv := hP
    obtain ⟨ts, d, cap, h1, _⟩ := hv
    have := push_ok t l src TP TQ fP fQ C m hP hQ
    subst h1
    exact this
  | emplace => exact emplace_ok t
  | wrap => exact wrap_ok t
  | assign => exact assign_ok t

/-! ## `pop` and `clear` -/

theorem pop_ok {t : Ty} {l : Loc} {ts : List Tree} {f R : List Nat} {m : Mem} (h : Rep m.obj (.vec t) l (.vec ts) f) (hp : m.live.Perm (f ++ R))
    (hn : m.live.Nodup) (hl : l.blk ∈ R) :
    (ts = [] → pop t l m = .error .die) ∧
    (ts ≠ [] → ∃ m' f2, pop t l m = .ok m' ∧ Rep m'.obj (.vec t) l (.vec ts.dropLast) f2 ∧ m'.live.Perm (f2 ++ R) ∧ m'.next = m.next ∧
      m'.live.Nodup ∧ (∀ b ∈ m'.live, b ∈ m.live) ∧ ∀ k, ¬ Under l k → k.blk ∉ f → m'.obj k = m.obj k) := by
  obtain ⟨ts', d, cap, h1, h2, h3, h4⟩ := h
  cases h1
  have hlive : l.blk ∈ m.live := hp.mem_iff.2 (List.mem_append_right _ hl)
  unfold pop
  rw [load_ok hlive h2]
  constructor
  · rintro rfl
    rfl
  · intro hne
    have hpos : ts.length ≠ 0 := fun h => hne (List.eq_nil_of_length_eq_zero h)
    rcases h4 with ⟨_, e2, _⟩ | ⟨b, F, e1, e2, e3, e4⟩
    · omega
    · subst e1
      obtain ⟨n, hlen⟩ : ∃ n, ts.length = n + 1 := ⟨ts.length - 1, by omega⟩
      have hflat : (List.range' 0 ts.length).flatMap F = (List.range' 0 n).flatMap F ++ F n := by
        rw [hlen, List.range'_1_concat, List.flatMap_append]
        simp
      have hnP : f.Nodup := (List.nodup_append.1 (hp.nodup_iff.1 hn)).1
      rw [e3, hflat] at hnP
      have hdis : ∀ {x}, x ∈ f → x ∈ R → False := nodup_dis (hp.nodup_iff.1 hn)
      have hmem : ∀ {i x}, i < ts.length → x ∈ F i → x ∈ f := fun hi hx => by rw [e3]; exact List.mem_cons_of_mem _ (mem_flat hi hx)
      have hbf : b ∈ f := by rw [e3]; exact List.mem_cons_self
      have hlb : b ≠ l.blk := fun h => hdis hbf (h ▸ hl)
      have hput : ∀ {i T}, ts[i]? = some T → Rep (m.put l (.vec (some b) n cap)).obj t ⟨b, [.elem i]⟩ T (F i) := fun {i T} hi =>
        rep_put (e4 i T hi) (rep_not_under hlb) (fun h => hdis (hmem (List.getElem?_eq_some_iff.1 hi).1 h) hl)
      have hp1 : m.live.Perm (F n ++ ((b :: (List.range' 0 n).flatMap F) ++ R)) := by
        refine hp.trans ?_
        rw [e3, hflat, List.perm_iff_count]
        intro z
        simp only [List.count_append, List.count_cons]
        omega
      obtain ⟨m2, r1, _, r3, r4, r5⟩ := destroy_ok t ⟨b, [.elem n]⟩ ts[n] (F n) (m.put l (.vec (some b) n cap)) _
        (hput (List.getElem?_eq_getElem (by omega))) hp1 hn (List.mem_append_left _ List.mem_cons_self)
      have hn2 : m2.live.Nodup := r3.nodup_iff.2 (nodup_right hp1 hn)
      refine ⟨m2, b :: (List.range' 0 n).flatMap F, ?_, ⟨ts.dropLast, some b, cap, rfl, ?_, by simp; omega, .inr ⟨b, F, rfl, e2, by simp [hlen],
        fun i T hi => ?_⟩⟩, r3, r4, hn2, fun x hx => hp1.mem_iff.2 (List.mem_append_right _ (r3.mem_iff.1 hx)), fun k hk hf => ?_⟩
      · simp only [bind, Except.bind, if_neg hpos, store_ok hlive, elemAt, hlen, Nat.add_sub_cancel]
        exact r1
      · rw [r5 l (rep_not_under hlb) (fun h => hdis (hmem (by omega : n < ts.length) h) hl), put_self, List.length_dropLast, hlen, Nat.add_sub_cancel]
      · have hi' : i < n := by
          have := (List.getElem?_eq_some_iff.1 hi).1
          rw [List.length_dropLast] at this
          omega
        have hi2 : ts[i]? = some T := by
          rw [List.getElem?_dropLast, if_pos (by omega)] at hi
          exact hi
        have hFn : ∀ {x}, x ∈ F n → x ∉ b :: (List.range' 0 n).flatMap F := fun hx h =>
          nodup_dis (by simpa using hnP : (b :: (List.range' 0 n).flatMap F ++ F n).Nodup) h hx
        refine rep_frame (hput hi2) (fun k hk => r5 k (elem_disj (by omega) hk) (fun h => hFn h ?_)) (fun k hk => r5 k (fun hu => ?_) (fun h => hFn h ?_))
        · rw [hk.1]; exact List.mem_cons_self
        · have q : k.blk = b := hu.1
          exact (List.nodup_cons.1 hnP).1 (List.mem_append_left _ (mem_flat hi' (q ▸ hk)))
        · exact List.mem_cons_of_mem _ (mem_flat hi' hk)
      · rw [r5 k (fun hu => hf (by rw [hu.1]; exact hbf)) (fun h => hf (hmem (by omega : n < ts.length) h)), put_ne (ne_of_not_under hk)]

theorem clear_ok {t : Ty} {l : Loc} {ts : List Tree} {f R : List Nat} {m : Mem} (h : Rep m.obj (.vec t) l (.vec ts) f) (hp : m.live.Perm (f ++ R))
    (hn : m.live.Nodup) (hl : l.blk ∈ R) :
    ∃ m' f2, clear t l m = .ok m' ∧ Rep m'.obj (.vec t) l (.vec []) f2 ∧ m'.live.Perm (f2 ++ R) ∧ m'.next = m.next ∧
      m'.live.Nodup ∧ (∀ b ∈ m'.live, b ∈ m.live) ∧ ∀ k, ¬ Under l k → k.blk ∉ f → m'.obj k = m.obj k := by
  obtain ⟨ts', d, cap, h1, h2, h3, h4⟩ := h
  cases h1
  have hlive : l.blk ∈ m.live := hp.mem_iff.2 (List.mem_append_right _ hl)
  unfold clear
  rw [load_ok hlive h2]
  rcases h4 with ⟨e1, e2, e3⟩ | ⟨b, F, e1, e2, e3, e4⟩
  · have hz : ts.length = 0 := by omega
    refine ⟨m.put l (.vec none 0 cap), [], ?_, ⟨[], none, cap, rfl, put_self, by simp, .inl ⟨rfl, e2, rfl⟩⟩, by rw [e3] at hp; exact hp, rfl, hn,
      fun _ hx => hx, fun k hk _ => put_ne (ne_of_not_under hk)⟩
    simp only [bind, Except.bind, hz, loop, e1]
    exact store_ok hlive
  · subst e1
    have hp1 : m.live.Perm ((List.range' 0 ts.length).flatMap F ++ (b :: R)) := by
      rw [e3] at hp
      exact hp.trans (by simpa using List.perm_middle.symm)
    obtain ⟨m1, r1, r2, r3, r4⟩ := destroy_loop (destroy_ok t) ts.length 0 m (b :: R) (fun j _ hj => by
        rw [Nat.zero_add] at hj
        exact ⟨_, e4 j ts[j] (List.getElem?_eq_getElem hj)⟩) hp1 hn List.mem_cons_self
    refine ⟨m1.put l (.vec (some b) 0 cap), [b], ?_, ⟨[], some b, cap, rfl, put_self, by simp, .inr ⟨b, F, rfl, e2, by simp, fun i T hi => by
      simp at hi⟩⟩, r2, r3, r2.nodup_iff.2 (nodup_right hp1 hn), fun x hx => hp1.mem_iff.2 (List.mem_append_right _ (r2.mem_iff.1 hx)), fun k hk hf => ?_⟩
    · simp only [bind, Except.bind] at r1 ⊢
      rw [r1]
      exact store_ok (r2.mem_iff.2 (List.mem_cons_of_mem _ hl))
    · rw [e3, List.mem_cons, not_or] at hf
      rw [put_ne (ne_of_not_under hk), r4 k hf.1 hf.2]

/-! ## Default constructors -/

theorem defCtor_ok : ∀ (t : Ty) (l : Loc) (m : Mem), l.blk ∈ m.live → ∃ m', defCtor t l m = .ok m' ∧ Rep m'.obj t l (dflt t) [] ∧ m'.live = m.live ∧
    m'.next = m.next ∧ ∀ k, ¬ Under l k → m'.obj k = m.obj k := by
  intro t
  induction t with
  | num => exact fun l m hl => ⟨_, store_ok hl, ⟨rfl, 0, rfl, put_self⟩, rfl, rfl, fun k hk => put_ne (ne_of_not_under hk)⟩
  | vec t ih => exact fun l m hl => ⟨_, store_ok hl, ⟨[], none, 0, rfl, put_self, by simp, .inl ⟨rfl, rfl, rfl⟩⟩, rfl, rfl, fun k hk => put_ne (ne_of_not_under hk)⟩
  | box t ih => exact fun l m hl => ⟨_, store_ok hl, .inl ⟨rfl, put_self, rfl⟩, rfl, rfl, fun k hk => put_ne (ne_of_not_under hk)⟩
  | opt t ih => exact fun l m hl => ⟨_, store_ok hl, .inl ⟨rfl, put_self, rfl⟩, rfl, rfl, fun k hk => put_ne (ne_of_not_under hk)⟩
  | pair a b iha ihb =>
    intro l m hl
    obtain ⟨m1, e1, e2, e3, e4, e5⟩ := iha (l.sub .fst) m hl
    obtain ⟨m2, r1, r2, r3, r4, r5⟩ := ihb (l.sub .snd) m1 (by rw [e3]; exact hl)
    refine ⟨m2, by simp only [defCtor, e1, bind, Except.bind]; exact r1, ⟨dflt a, dflt b, [], [], rfl, rfl,
      rep_frame e2 (fun k hk => r5 k (sub_disj (by simp) hk)) (fun k hk => by simp at hk), r2⟩, r3.trans e3, r4.trans e4, fun k hk => ?_⟩
    rw [r5 k (fun h => hk ((under_sub _ _).trans h)), e5 k (fun h => hk ((under_sub _ _).trans h))]

end Rpp.Nested
