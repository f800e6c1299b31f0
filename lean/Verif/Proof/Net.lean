import Verif.Model.Net
import Mathlib.Data.List.Nodup

/-!
# Descriptor owners: helper lemmas
-/

namespace Rpp.Fd

/-- No descriptor is closed twice, none is closed that is still in use, none is shared. -/
structure Inv (s : St) : Prop where
  op : ∀ fd, fd ∈ s.opened ↔ fd < s.opened.length
  nodup : s.closed.Nodup
  sub : ∀ fd ∈ s.closed, fd ∈ s.opened
  own : ∀ v fd, s.objs v = some (some fd) → fd ∈ s.opened ∧ fd ∉ s.closed
  one : ∀ v u fd, s.objs v = some (some fd) → s.objs u = some (some fd) → v = u

/-- Nothing is lost: each descriptor is closed or has an owner. -/
def Kept (s : St) : Prop := ∀ fd ∈ s.opened, fd ∈ s.closed ∨ ∃ v, s.objs v = some (some fd)

theorem init_inv : Inv St.init := ⟨by simp [St.init], by simp [St.init], by simp [St.init], by simp [St.init], by simp [St.init]⟩

theorem init_kept : Kept St.init := by simp [Kept, St.init]

theorem closing_objs (s : St) (x : Option Nat) : (closing s x).objs = s.objs := by cases x <;> rfl

theorem closing_opened (s : St) (x : Option Nat) : (closing s x).opened = s.opened := by cases x <;> rfl

/-- Closing the descriptor of an object and taking it away from the object (or the object itself). -/
theorem close_inv {s : St} (h : Inv s) {v : Nat} {old : Option Nat} (hv : s.objs v = some old) {x : Option (Option Nat)}
    (hx : x = none ∨ x = some none) : Inv { closing s old with objs := set s.objs v x } := by
  have hset : ∀ w fd, set s.objs v x w = some (some fd) → w ≠ v ∧ s.objs w = some (some fd) := by
    intro w fd hw
    unfold set at hw
    by_cases c : w = v
    · rw [if_pos c] at hw
      rcases hx with rfl | rfl <;> cases hw
    · rw [if_neg c] at hw
      exact ⟨c, hw⟩
  cases old with
  | none =>
    refine ⟨h.op, h.nodup, h.sub, ?_, ?_⟩
    · intro w fd hw; exact h.own w fd (hset w fd hw).2
    · intro w u fd hw hu; exact h.one w u fd (hset w fd hw).2 (hset u fd hu).2
  | some k =>
    have hk := h.own v k hv
    refine ⟨h.op, ?_, ?_, ?_, ?_⟩
    · exact List.nodup_cons.2 ⟨hk.2, h.nodup⟩
    · intro fd hfd
      rcases List.mem_cons.1 hfd with rfl | hfd
      · exact hk.1
      · exact h.sub fd hfd
    · intro w fd hw
      have hw' := hset w fd hw
      refine ⟨(h.own w fd hw'.2).1, fun hc => ?_⟩
      rcases List.mem_cons.1 hc with rfl | hc
      · exact hw'.1 (h.one w v fd hw'.2 hv)
      · exact (h.own w fd hw'.2).2 hc
    · intro w u fd hw hu; exact h.one w u fd (hset w fd hw).2 (hset u fd hu).2

theorem close_kept {s : St} (h : Kept s) {v : Nat} {old : Option Nat} (hv : s.objs v = some old) (x : Option (Option Nat)) :
    Kept { closing s old with objs := set s.objs v x } := by
  intro fd hfd
  have hfd' : fd ∈ s.opened := by rw [← closing_opened s old]; exact hfd
  have hcl : ∀ k ∈ s.closed, k ∈ (closing s old).closed := by
    intro k hk
    cases old with
    | none => exact hk
    | some j => exact List.mem_cons.2 (.inr hk)
  rcases h fd hfd' with hc | ⟨w, hw⟩
  · exact .inl (hcl fd hc)
  · by_cases c : w = v
    · subst c
      rw [hv] at hw
      cases hw
      exact .inl (List.mem_cons.2 (.inl rfl))
    · exact .inr ⟨w, by show set s.objs v x w = _; unfold set; rw [if_neg c]; exact hw⟩

/-- Moving the descriptor of `u` to `v`, where `v` holds none (or does not exist, or is `u`). -/
theorem move_inv {s : St} (h : Inv s) {v u : Nat} {fd : Option Nat} (hu : s.objs u = some fd) :
    Inv { s with objs := set (set s.objs v (some fd)) u (some none) } := by
  have hset : ∀ w k, set (set s.objs v (some fd)) u (some none) w = some (some k) →
      (w = v ∧ fd = some k) ∨ (w ≠ u ∧ w ≠ v ∧ s.objs w = some (some k)) := by
    intro w k hw
    unfold set at hw
    by_cases c : w = u
    · rw [if_pos c] at hw; cases hw
    · rw [if_neg c] at hw
      by_cases c' : w = v
      · rw [if_pos c'] at hw
        exact .inl ⟨c', by simpa using hw⟩
      · rw [if_neg c'] at hw
        exact .inr ⟨c, c', hw⟩
  refine ⟨h.op, h.nodup, h.sub, ?_, ?_⟩
  · intro w k hw
    rcases hset w k hw with ⟨_, rfl⟩ | ⟨_, _, hw⟩
    · exact h.own u k hu
    · exact h.own w k hw
  · intro w w' k hw hw'
    rcases hset w k hw with ⟨ev, ek⟩ | ⟨c1, c2, hw1⟩
    · rcases hset w' k hw' with ⟨ev', _⟩ | ⟨d1, d2, hw2⟩
      · rw [ev, ev']
      · exact absurd (h.one w' u k hw2 (by rw [hu, ek])) d1
    · rcases hset w' k hw' with ⟨_, ek⟩ | ⟨d1, d2, hw2⟩
      · exact absurd (h.one w u k hw1 (by rw [hu, ek])) c1
      · exact h.one w w' k hw1 hw2

theorem move_kept {s : St} (h : Kept s) {v u : Nat} {fd : Option Nat} (hu : s.objs u = some fd)
    (hv : s.objs v = none ∨ s.objs v = some none) : Kept { s with objs := set (set s.objs v (some fd)) u (some none) } := by
  intro k hk
  rcases h k hk with hc | ⟨w, hw⟩
  · exact .inl hc
  · refine .inr ?_
    have hwv : w ≠ v := by
      rintro rfl
      rw [hw] at hv
      rcases hv with hv | hv <;> cases hv
    by_cases c : w = u
    · subst c
      rw [hu] at hw
      cases hw
      refine ⟨v, ?_⟩
      show set (set s.objs v _) w _ v = _
      unfold set
      rw [if_neg (fun e => hwv e.symm), if_pos rfl]
    · refine ⟨w, ?_⟩
      show set (set s.objs v _) u _ w = _
      unfold set
      rw [if_neg c, if_neg hwv]
      exact hw

theorem make_inv {s : St} (h : Inv s) {v : Nat} : Inv { s with objs := set s.objs v (some (some s.opened.length)), opened := s.opened.length :: s.opened } := by
  have hnew : s.opened.length ∉ s.opened := fun hx => by have := (h.op _).1 hx; omega
  have hset : ∀ w k, set s.objs v (some (some s.opened.length)) w = some (some k) →
      (w = v ∧ k = s.opened.length) ∨ s.objs w = some (some k) := by
    intro w k hw
    unfold set at hw
    by_cases c : w = v
    · rw [if_pos c] at hw
      exact .inl ⟨c, by simpa using hw.symm⟩
    · rw [if_neg c] at hw
      exact .inr hw
  refine ⟨?_, h.nodup, ?_, ?_, ?_⟩
  · intro fd
    simp only [List.mem_cons, List.length_cons, h.op]
    omega
  · intro fd hfd; exact List.mem_cons.2 (.inr (h.sub fd hfd))
  · intro w k hw
    rcases hset w k hw with ⟨_, rfl⟩ | hw
    · exact ⟨List.mem_cons.2 (.inl rfl), fun hc => hnew (h.sub _ hc)⟩
    · exact ⟨List.mem_cons.2 (.inr (h.own w k hw).1), (h.own w k hw).2⟩
  · intro w u k hw hu
    rcases hset w k hw with ⟨rfl, rfl⟩ | hw
    · rcases hset u _ hu with ⟨rfl, _⟩ | hu
      · rfl
      · exact absurd (h.own u _ hu).1 hnew
    · rcases hset u k hu with ⟨_, rfl⟩ | hu
      · exact absurd (h.own w _ hw).1 hnew
      · exact h.one w u k hw hu

theorem make_kept {s : St} (h : Kept s) {v : Nat} (hv : s.objs v = none) :
    Kept { s with objs := set s.objs v (some (some s.opened.length)), opened := s.opened.length :: s.opened } := by
  intro k hk
  rcases List.mem_cons.1 hk with rfl | hk
  · exact .inr ⟨v, by show set _ _ _ _ = _; unfold set; rw [if_pos rfl]⟩
  · rcases h k hk with hc | ⟨w, hw⟩
    · exact .inl hc
    · refine .inr ⟨w, ?_⟩
      show set _ _ _ _ = _
      unfold set
      rw [if_neg (by rintro rfl; rw [hv] at hw; cases hw)]
      exact hw

theorem step_inv (closes : Bool) {s : St} (h : Inv s) (o : Op) : Inv (step closes s o) := by
  cases o with
  | make v =>
    simp only [step]
    split
    · exact make_inv h
    · exact h
  | moveNew v u =>
    simp only [step]
    split
    · rename_i fd _ hu
      exact move_inv h hu
    · exact h
  | drop v =>
    simp only [step]
    split
    · rename_i old hv
      exact close_inv h hv (.inl rfl)
    · exact h
  | assign v u =>
    simp only [step]
    split
    · rename_i old x hv hu
      cases closes with
      | false =>
        simp only [Bool.false_eq_true, if_false, hu]
        exact move_inv h hu
      | true =>
        simp only [if_true]
        have h' := close_inv h hv (x := some none) (.inr rfl)
        split
        · rename_i fd hu'
          exact move_inv h' hu'
        · exact h'
    · exact h

theorem step_kept (closes : Bool) {s : St} (h : Kept s) (o : Op)
    (ha : closes = true ∨ ∀ v u, o = .assign v u → s.objs u ≠ none → s.objs v ≠ some none → s.objs v = none) : Kept (step closes s o) := by
  cases o with
  | make v =>
    simp only [step]
    split
    · rename_i hv
      exact make_kept h hv
    · exact h
  | moveNew v u =>
    simp only [step]
    split
    · rename_i fd hv hu
      exact move_kept h hu (.inl hv)
    · exact h
  | drop v =>
    simp only [step]
    split
    · rename_i old hv
      exact close_kept h hv none
    · exact h
  | assign v u =>
    simp only [step]
    split
    · rename_i old x hv hu
      cases closes with
      | false =>
        simp only [Bool.false_eq_true, if_false, hu]
        rcases ha with ha | ha
        · cases ha
        · refine move_kept h hu ?_
          by_cases c : s.objs v = some none
          · exact .inr c
          · exact .inl (ha v u rfl (by rw [hu]; intro hx; cases hx) c)
      | true =>
        simp only [if_true]
        have h' := close_kept h hv (some none)
        split
        · rename_i fd hu'
          exact move_kept h' hu' (.inr (by show set _ _ _ _ = _; unfold set; rw [if_pos rfl]))
        · exact h'
    · exact h

theorem run_inv (closes : Bool) (ops : List Op) : Inv (run closes ops) := by
  unfold run
  have : ∀ (l : List Op) s, Inv s → Inv (l.foldl (step closes) s) := by
    intro l
    induction l with
    | nil => intro s h; exact h
    | cons o l ih => intro s h; exact ih _ (step_inv closes h o)
  exact this ops _ init_inv

theorem run_kept (closes : Bool) (ops : List Op)
    (ha : closes = true ∨ ∀ pre v u post, ops = pre ++ .assign v u :: post → (run closes pre).objs u ≠ none →
      (run closes pre).objs v = none ∨ (run closes pre).objs v = some none) : Kept (run closes ops) := by
  have : ∀ (l pre : List Op), ops = pre ++ l → Kept (run closes pre) → Kept (run closes ops) := by
    intro l
    induction l with
    | nil => intro pre e h; rw [e, List.append_nil]; exact h
    | cons o l ih =>
      intro pre e h
      refine ih (pre ++ [o]) (by rw [e]; simp) ?_
      unfold run
      rw [List.foldl_append]
      refine step_kept closes h o ?_
      rcases ha with ha | ha
      · exact .inl ha
      · refine .inr fun v u ho hu hne => ?_
        subst ho
        rcases ha pre v u l e hu with h1 | h1
        · exact h1
        · exact absurd h1 hne
  exact this ops [] rfl init_kept

theorem opened_nodup (closes : Bool) (ops : List Op) : (run closes ops).opened.Nodup := by
  have : ∀ (l : List Op) s, Inv s → s.opened.Nodup → (l.foldl (step closes) s).opened.Nodup := by
    intro l
    induction l with
    | nil => intro s _ h; exact h
    | cons o l ih =>
      intro s hi h
      refine ih _ (step_inv closes hi o) ?_
      cases o with
      | make v =>
        simp only [step]
        split
        · exact List.nodup_cons.2 ⟨fun hx => by have := (hi.op _).1 hx; omega, h⟩
        · exact h
      | moveNew v u => simp only [step]; split <;> exact h
      | drop v =>
        simp only [step]
        split
        · show (closing s _).opened.Nodup
          rw [closing_opened]; exact h
        · exact h
      | assign v u =>
        simp only [step]
        split
        · cases closes with
          | false => simp only [Bool.false_eq_true, if_false]; split <;> exact h
          | true =>
            simp only [if_true]
            split
            · show (closing s _).opened.Nodup
              rw [closing_opened]; exact h
            · show (closing s _).opened.Nodup
              rw [closing_opened]; exact h
        · exact h
  exact this ops _ init_inv (by simp [St.init])

/-- Open, and nobody has it. -/
def Lost (fd : Nat) (s : St) : Prop := fd ∈ s.opened ∧ fd ∉ s.closed ∧ ∀ v, s.objs v ≠ some (some fd)

theorem lost_closing {fd : Nat} {s : St} (h : Lost fd s) {v : Nat} {old : Option Nat} (hv : s.objs v = some old)
    {x : Option (Option Nat)} (hx : x ≠ some (some fd)) : Lost fd { closing s old with objs := set s.objs v x } := by
  refine ⟨by rw [closing_opened]; exact h.1, ?_, ?_⟩
  · cases old with
    | none => exact h.2.1
    | some k =>
      intro hc
      rcases List.mem_cons.1 hc with e | hc
      · exact h.2.2 v (by rw [hv, e])
      · exact h.2.1 hc
  · intro w
    show set s.objs v x w ≠ _
    unfold set
    by_cases c : w = v
    · rw [if_pos c]; exact hx
    · rw [if_neg c]; exact h.2.2 w

theorem lost_move {fd : Nat} {s : St} (h : Lost fd s) {v u : Nat} {x : Option Nat} (hx : s.objs u = some x) :
    Lost fd { s with objs := set (set s.objs v (some x)) u (some none) } := by
  refine ⟨h.1, h.2.1, fun w => ?_⟩
  show set (set s.objs v (some x)) u (some none) w ≠ _
  unfold set
  by_cases c : w = u
  · rw [if_pos c]; intro hx; cases hx
  · rw [if_neg c]
    by_cases c' : w = v
    · rw [if_pos c', ← hx]; exact h.2.2 u
    · rw [if_neg c']; exact h.2.2 w

/-- What is lost stays so. -/
theorem step_lost (closes : Bool) {fd : Nat} {s : St} (hi : Inv s) (h : Lost fd s) (o : Op) : Lost fd (step closes s o) := by
  cases o with
  | make v =>
    simp only [step]
    split
    · have hlt := (hi.op fd).1 h.1
      refine ⟨List.mem_cons.2 (.inr h.1), h.2.1, fun w => ?_⟩
      show set _ _ _ _ ≠ _
      unfold set
      by_cases c : w = v
      · rw [if_pos c]
        intro e
        injection e with e
        injection e with e
        omega
      · rw [if_neg c]; exact h.2.2 w
    · exact h
  | moveNew v u =>
    simp only [step]
    split
    · rename_i x _ hu
      exact lost_move h hu
    · exact h
  | drop v =>
    simp only [step]
    split
    · rename_i old hv
      exact lost_closing h hv (by intro e; cases e)
    · exact h
  | assign v u =>
    simp only [step]
    split
    · rename_i old x hv hu
      cases closes with
      | false =>
        simp only [Bool.false_eq_true, if_false, hu]
        exact lost_move h hu
      | true =>
        simp only [if_true]
        have h' := lost_closing h hv (x := some none) (by intro e; cases e)
        split
        · rename_i fd hu'
          exact lost_move h' hu'
        · exact h'
    · exact h

theorem run_append (closes : Bool) (a b : List Op) : run closes (a ++ b) = b.foldl (step closes) (run closes a) := by
  unfold run
  rw [List.foldl_append]

theorem foldl_lost (closes : Bool) {fd : Nat} : ∀ (l : List Op) (s : St), Inv s → Lost fd s → Lost fd (l.foldl (step closes) s)
  | [], _, _, h => h
  | o :: l, _, hi, h => foldl_lost closes l _ (step_inv closes hi o) (step_lost closes hi h o)

/-- Assigning without closing loses the descriptor. -/
theorem assign_lost {s : St} (hi : Inv s) {v u fd : Nat} (hv : s.objs v = some (some fd)) (hu : s.objs u ≠ none) :
    Lost fd (step false s (.assign v u)) := by
  obtain ⟨x, hx⟩ := Option.ne_none_iff_exists'.1 hu
  simp only [step, hv, hx, Bool.false_eq_true, if_false]
  refine ⟨(hi.own v fd hv).1, (hi.own v fd hv).2, fun w => ?_⟩
  show set (set s.objs v (some x)) u (some none) w ≠ _
  unfold set
  by_cases c : w = u
  · rw [if_pos c]; intro e; cases e
  · rw [if_neg c]
    by_cases c' : w = v
    · rw [if_pos c']
      intro e
      rw [← hx] at e
      exact c (by rw [c']; exact hi.one v u fd hv e)
    · rw [if_neg c']
      exact fun e => c' (hi.one w v fd e hv)

end Rpp.Fd

namespace Rpp.Event

theorem addAll_ok : ∀ (l added : List Nat), (added ++ l).Nodup → addAll added (l.map some) = some (added ++ l)
  | [], added, _ => by simp [addAll]
  | fd :: l, added, h => by
    have hn : fd ∉ added := fun hm => by
      rw [List.nodup_append] at h
      exact h.2.2 fd hm fd (.head _) rfl
    simp only [List.map_cons, addAll, if_neg hn]
    rw [addAll_ok l (added ++ [fd]) (by simpa using h)]
    simp

/-- The loop adds all of them exactly if all are descriptors and all different. -/
theorem addAll_iff : ∀ (l : List (Option Nat)) (added : List Nat), added.Nodup →
    ((∃ r, addAll added l = some r) ↔ none ∉ l ∧ l.Nodup ∧ ∀ fd ∈ added, some fd ∉ l)
  | [], added, _ => by simp [addAll]
  | none :: l, added, _ => by simp [addAll]
  | some fd :: l, added, h => by
    unfold addAll
    by_cases hm : fd ∈ added
    · rw [if_pos hm]
      refine ⟨fun ⟨r, hr⟩ => (by cases hr), fun ⟨_, _, hx⟩ => absurd List.mem_cons_self (hx fd hm)⟩
    · rw [if_neg hm, addAll_iff l (added ++ [fd]) (by
        rw [List.nodup_append]
        exact ⟨h, List.nodup_singleton _, fun a ha b hb e => hm (by rw [List.mem_singleton] at hb; rw [← hb, ← e]; exact ha)⟩)]
      rw [List.nodup_cons]
      simp only [List.mem_cons, List.mem_append, List.mem_singleton, List.not_mem_nil, or_false, not_or]
      constructor
      · rintro ⟨h1, h2, h3⟩
        refine ⟨⟨(by intro e; cases e), h1⟩, ⟨h3 fd (.inr rfl), h2⟩, fun k hk => ⟨?_, h3 k (.inl hk)⟩⟩
        intro e
        cases e
        exact hm hk
      · rintro ⟨⟨_, h1⟩, ⟨h2, h3⟩, h4⟩
        refine ⟨h1, h3, fun k hk => ?_⟩
        rcases hk with hk | rfl
        · exact (h4 k hk).2
        · exact h2

theorem all_some : ∀ (l : List (Option Nat)), none ∉ l → ∃ k : List Nat, l = k.map some
  | [], _ => ⟨[], rfl⟩
  | none :: _, h => absurd List.mem_cons_self h
  | some a :: l, h => by
    obtain ⟨k, rfl⟩ := all_some l (fun hm => h (List.mem_cons_of_mem _ hm))
    exact ⟨a :: k, rfl⟩

theorem waitAny_ok {fds : List Nat} (h : fds.Nodup) (ready : Nat → Bool) (pick : Nat) :
    (∃ i fd, waitAny (fds.map some) ready pick false = .ok i ∧ fds[i]? = some fd ∧ ready fd = true) ∨
    (waitAny (fds.map some) ready pick false = .error .hang ∧ ∀ fd ∈ fds, ready fd = false) := by
  unfold waitAny
  rw [addAll_ok fds [] (by simpa using h)]
  simp only [List.nil_append, Bool.false_eq_true, if_false]
  by_cases hz : (fds.filter ready).length = 0
  · refine .inr ⟨?_, ?_⟩
    · rw [List.length_eq_zero_iff] at hz
      simp [hz]
    · intro fd hfd
      rw [List.length_eq_zero_iff, List.filter_eq_nil_iff] at hz
      simpa using hz fd hfd
  · have hlt := Nat.mod_lt pick (Nat.pos_of_ne_zero hz)
    refine .inl ?_
    rw [List.getElem?_eq_getElem hlt]
    have hm := List.getElem_mem hlt
    rw [List.mem_filter] at hm
    generalize (fds.filter ready)[pick % (fds.filter ready).length] = fd at hm
    have hi : (fds.map some).idxOf (some fd) < (fds.map some).length :=
      List.idxOf_lt_length_of_mem (List.mem_map.2 ⟨fd, hm.1, rfl⟩)
    refine ⟨(fds.map some).idxOf (some fd), fd, by simp only [if_pos hi], ?_, hm.2⟩
    have h1 := List.getElem_idxOf hi
    rw [List.getElem_map] at h1
    have hi' : (fds.map some).idxOf (some fd) < fds.length := by simpa using hi
    rw [List.getElem?_eq_getElem hi']
    exact h1

theorem waitAny_die (fds : List (Option Nat)) (ready : Nat → Bool) (pick : Nat) (intr : Bool) :
    waitAny fds ready pick intr = .error .die ↔ intr = true ∨ none ∈ fds ∨ ¬ fds.Nodup := by
  by_cases hg : none ∉ fds ∧ fds.Nodup
  · obtain ⟨k, rfl⟩ := all_some fds hg.1
    have hk : k.Nodup := List.Nodup.of_map _ hg.2
    cases intr with
    | true =>
      refine ⟨fun _ => .inl rfl, fun _ => ?_⟩
      unfold waitAny
      rw [addAll_ok k [] (by simpa using hk)]
      rfl
    | false =>
      refine ⟨fun he => ?_, fun hx => ?_⟩
      · rcases waitAny_ok hk ready pick with ⟨i, fd, e, _⟩ | ⟨e, _⟩
        · rw [e] at he; cases he
        · rw [e] at he; cases he
      · rcases hx with hx | hx | hx
        · cases hx
        · exact absurd hx hg.1
        · exact absurd hg.2 hx
  · have hn : addAll [] fds = none := by
      cases he : addAll [] fds with
      | none => rfl
      | some r =>
        have := (addAll_iff fds [] List.nodup_nil).1 ⟨r, he⟩
        exact absurd ⟨this.1, this.2.1⟩ hg
    refine ⟨fun _ => ?_, fun _ => ?_⟩
    · by_cases c : none ∈ fds
      · exact .inr (.inl c)
      · exact .inr (.inr fun hd => hg ⟨c, hd⟩)
    · unfold waitAny
      rw [hn]

/-- Only a reset directly after a signal (or with the counter already raised) works. -/
theorem runOps_only : ∀ (bs : List Bool) (c c' : Nat), runOps c bs = .ok c' →
    ∀ pre post, bs = pre ++ false :: post → (c ≠ 0 ∧ pre = []) ∨ pre.getLast? = some true
  | [], _, _, _ => fun pre post e => by cases pre <;> cases e
  | b :: bs, c, c', h => fun pre post e => by
    cases pre with
    | nil =>
      cases e
      refine .inl ⟨fun hc => ?_, rfl⟩
      simp [runOps, reset, hc] at h
    | cons x pre =>
      cases e
      right
      cases b with
      | true =>
        simp only [runOps, if_true, signal] at h
        by_cases hc : c + 1 ≤ 2 ^ 64 - 2
        · rw [if_pos hc] at h
          rcases runOps_only _ _ _ h pre post rfl with ⟨_, rfl⟩ | h1
          · rfl
          · cases pre with
            | nil => cases h1
            | cons y pre => rw [List.getLast?_cons_cons]; exact h1
        · rw [if_neg hc] at h
          cases h
      | false =>
        simp only [runOps, Bool.false_eq_true, if_false, reset] at h
        by_cases hc : c = 0
        · rw [if_pos hc] at h
          cases h
        · rw [if_neg hc] at h
          rcases runOps_only _ _ _ h pre post rfl with ⟨h0, _⟩ | h1
          · exact absurd rfl h0
          · cases pre with
            | nil => cases h1
            | cons y pre => rw [List.getLast?_cons_cons]; exact h1

theorem runOps_ok : ∀ (bs : List Bool) (c : Nat), c + bs.length ≤ 2 ^ 64 - 2 →
    (∀ pre post, bs = pre ++ false :: post → (c ≠ 0 ∧ pre = []) ∨ pre.getLast? = some true) →
    ∃ c', runOps c bs = .ok c' ∧ (c' ≠ 0 ↔ (match bs.getLast? with | some b => b = true | none => c ≠ 0)) ∧ c' ≤ c + bs.length
  | [], c, _, _ => ⟨c, rfl, by simp, by simp⟩
  | b :: bs, c, hc, hb => by
    simp only [List.length_cons] at hc ⊢
    cases b with
    | true =>
      obtain ⟨c', e, h1, h2⟩ := runOps_ok bs (c + 1) (by omega) (by
        intro pre post e
        rcases hb (true :: pre) post (by rw [e]; rfl) with ⟨_, h⟩ | h
        · cases h
        · cases pre with
          | nil => exact .inl ⟨by omega, rfl⟩
          | cons x pre => rw [List.getLast?_cons_cons] at h; exact .inr h)
      refine ⟨c', ?_, ?_, by omega⟩
      · simp only [runOps, if_true, signal]
        rw [if_pos (by omega)]
        exact e
      · rw [h1]
        cases bs with
        | nil => simp
        | cons x bs => rw [List.getLast?_cons_cons]
                       rw [List.getLast?_eq_some_getLast (by simp)]
    | false =>
      have hne : c ≠ 0 := by
        rcases hb [] bs rfl with h | h
        · exact h.1
        · simp at h
      obtain ⟨c', e, h1, h2⟩ := runOps_ok bs 0 (by omega) (by
        intro pre post e
        rcases hb (false :: pre) post (by rw [e]; rfl) with ⟨_, h⟩ | h
        · cases h
        · cases pre with
          | nil => simp at h
          | cons x pre => rw [List.getLast?_cons_cons] at h; exact .inr h)
      refine ⟨c', ?_, ?_, by omega⟩
      · simp only [runOps, Bool.false_eq_true, if_false, reset]
        rw [if_neg hne]
        exact e
      · rw [h1]
        cases bs with
        | nil => simp
        | cons x bs => rw [List.getLast?_cons_cons]
                       rw [List.getLast?_eq_some_getLast (by simp)]

end Rpp.Event
