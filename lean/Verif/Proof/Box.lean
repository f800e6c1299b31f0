import Verif.Spec.Box
import Mathlib.Data.List.Nodup
import Mathlib.Data.List.Perm.Subperm

namespace Rpp.BoxM

variable {α : Type}

/-- The box `h` leads through the blocks listed, which hold the data listed, to the box `m`. -/
def Pre (s : St α) (m : Option Nat) : Option Nat → List (Nat × α) → Prop
  | h, [] => h = m
  | h, (b, x) :: r => h = some b ∧ ∃ n, s.blk b = some ⟨x, n⟩ ∧ Pre s m n r

/-- The blocks of a chain. -/
abbrev ids (r : List (Nat × α)) : List Nat := r.map Prod.fst

theorem Pre.frame {s s' : St α} {m : Option Nat} : ∀ {h : Option Nat} {r : List (Nat × α)}, Pre s m h r →
    (∀ b ∈ ids r, s'.blk b = s.blk b) → Pre s' m h r
  | _, [], h, _ => h
  | _, (b, x) :: r, ⟨h1, n, h2, h3⟩, hf =>
    ⟨h1, n, by rw [hf b (by simp)]; exact h2, h3.frame (fun c hc => hf c (List.mem_cons_of_mem _ hc))⟩

theorem Pre.alive {s : St α} {m : Option Nat} : ∀ {h : Option Nat} {r : List (Nat × α)}, Pre s m h r →
    ∀ b ∈ ids r, (s.blk b).isSome
  | _, [], _, b, hb => by simp at hb
  | _, (c, x) :: r, ⟨_, n, h2, h3⟩, b, hb => by
    simp only [ids, List.map_cons, List.mem_cons] at hb
    rcases hb with rfl | hb
    · simp [h2]
    · exact h3.alive b hb

theorem pre_append {s : St α} {m : Option Nat} : ∀ {h : Option Nat} {p r : List (Nat × α)},
    Pre s m h (p ++ r) ↔ ∃ k, Pre s k h p ∧ Pre s m k r
  | h, [], r => ⟨fun q => ⟨h, rfl, q⟩, fun ⟨_, e, q⟩ => by cases e; exact q⟩
  | h, (b, x) :: p, r => by
    constructor
    · rintro ⟨h1, n, h2, h3⟩
      obtain ⟨k, q1, q2⟩ := pre_append.1 h3
      exact ⟨k, ⟨h1, n, h2, q1⟩, q2⟩
    · rintro ⟨k, ⟨h1, n, h2, q1⟩, q2⟩
      exact ⟨h1, n, h2, pre_append.2 ⟨k, q1, q2⟩⟩

theorem blk_lt {s : St α} {b : Nat} (h : (s.blk b).isSome) : b < s.blks.length := by
  unfold St.blk at h
  rcases hq : s.blks[b]? with _ | o
  · rw [hq] at h; simp at h
  · exact (List.getElem?_eq_some_iff.1 hq).1

theorem blk_set {s : St α} {b c : Nat} {k : Option (Blk α)} (h : b < s.blks.length) :
    (s.setBlk b k).blk c = if c = b then k else s.blk c := by
  unfold St.blk St.setBlk
  dsimp only
  rw [List.getElem?_set]
  split
  · rename_i e
    subst e
    simp [h]
  · rename_i e
    rw [if_neg (fun q => e q.symm)]

/-- Destroying a chain destroys its blocks, the last first, and nothing else. -/
theorem destroy_ok : ∀ (fuel : Nat) (s : St α) (b : Nat) (x : α) (r : List (Nat × α)),
    Pre s none (some b) ((b, x) :: r) → (ids ((b, x) :: r)).Nodup → r.length < fuel →
    ∃ s', destroy fuel s b = .ok s' ∧ s'.vars = s.vars ∧ s'.blks.length = s.blks.length ∧
      s'.dead = s.dead ++ (ids ((b, x) :: r)).reverse ∧
      ∀ c, s'.blk c = if c ∈ ids ((b, x) :: r) then none else s.blk c
  | 0, _, _, _, _, _, _, hf => by omega
  | fuel + 1, s, b, x, r, ⟨_, n, h2, h3⟩, hn, hf => by
    have hb : b < s.blks.length := blk_lt (by simp [h2])
    unfold destroy
    rw [h2]
    dsimp only
    cases r with
    | nil =>
      have : n = none := h3
      subst this
      dsimp only
      unfold St.free
      rw [h2]
      refine ⟨_, rfl, rfl, by simp [St.setBlk], by simp, fun c => ?_⟩
      show (s.setBlk b none).blk c = _
      rw [blk_set hb]
      simp
    | cons y r =>
      obtain ⟨c, y⟩ := y
      have h3' := h3
      obtain ⟨rfl, n', h4, h5⟩ := h3'
      dsimp only
      rw [ids, List.map_cons, List.nodup_cons] at hn
      obtain ⟨s1, e1, e2, e3, e4, e5⟩ := destroy_ok fuel s c y r h3 hn.2 (by simp at hf; omega)
      have hb1 : s1.blk b = some ⟨x, some c⟩ := by
        rw [e5, if_neg hn.1, h2]
      simp only [bind, Except.bind]
      rw [e1]
      dsimp only
      unfold St.set
      dsimp only
      rw [hb1]
      dsimp only
      unfold St.free
      rw [blk_set (by omega), if_pos rfl]
      refine ⟨_, rfl, by simpa [St.setBlk] using e2, by simpa [St.setBlk] using e3, ?_, fun d => ?_⟩
      · simp [St.setBlk, e4]
      · show ((s1.setBlk b (some ⟨x, none⟩)).setBlk b none).blk d = _
        rw [blk_set (by simp [St.setBlk]; omega), blk_set (by omega), e5]
        simp only [ids, List.map_cons, List.mem_cons]
        by_cases h : d = b
        · simp only [h, true_or, if_true]
        · simp only [h, false_or, if_false]

/-- Cloning a chain makes a chain of new blocks with the same data. -/
theorem clone_ok : ∀ (fuel : Nat) (s : St α) (h : Option Nat) (r : List (Nat × α)),
    Pre s none h r → r.length < fuel →
    ∃ s' h' r', clone fuel s h = .ok (s', h') ∧ Pre s' none h' r' ∧ r'.map Prod.snd = r.map Prod.snd ∧
      s'.vars = s.vars ∧ s'.dead = s.dead ∧ s.blks.length ≤ s'.blks.length ∧
      (ids r').Nodup ∧ (∀ b, b ∈ ids r' ↔ s.blks.length ≤ b ∧ b < s'.blks.length) ∧
      ∀ c, c < s.blks.length → s'.blk c = s.blk c
  | 0, _, _, _, _, hf => by omega
  | fuel + 1, s, h, r, hc, hf => by
    cases r with
    | nil =>
      have : h = none := hc
      subst this
      exact ⟨s, none, [], by unfold clone; rfl, rfl, rfl, rfl, rfl, Nat.le_refl _, by simp,
        fun b => by simp, fun _ _ => rfl⟩
    | cons y r =>
      obtain ⟨b, x⟩ := y
      obtain ⟨rfl, n, h2, h3⟩ := hc
      obtain ⟨s1, h1, r1, e1, e2, e3, e4, e5, e6, e7, e8, e9⟩ :=
        clone_ok fuel s n r h3 (by simp at hf; omega)
      have hq : ∀ c, c < s1.blks.length → (alloc s1 x h1).1.blk c = s1.blk c := by
        intro c hc
        simp only [alloc, St.blk]
        rw [List.getElem?_append_left hc]
      refine ⟨(alloc s1 x h1).1, some s1.blks.length, (s1.blks.length, x) :: r1, ?_, ⟨rfl, h1, ?_, ?_⟩, ?_, e4, e5,
        ?_, ?_, ?_, ?_⟩
      · unfold clone
        rw [h2]
        simp only [bind, Except.bind]
        rw [e1]
        rfl
      · simp [alloc, St.blk]
      · exact e2.frame (fun c hc => hq c ((e8 c).1 hc).2)
      · simp [e3]
      · simp [alloc]; omega
      · rw [ids, List.map_cons, List.nodup_cons]
        exact ⟨fun hm => by have := (e8 _).1 hm; omega, e7⟩
      · intro c
        rw [ids, List.map_cons, List.mem_cons, e8]
        simp only [alloc, List.length_append, List.length_singleton]
        omega
      · intro c hc
        rw [hq c (by omega), e9 c hc]

/-- The location of the link behind the data listed. -/
def locOf (v : Nat) (p : List (Nat × α)) : Loc :=
  match p.getLast? with
  | none => .var v
  | some b => .fld b.1

theorem locOf_nil (v : Nat) : locOf v ([] : List (Nat × α)) = .var v := rfl

theorem locOf_snoc (v : Nat) (p : List (Nat × α)) (b : Nat) (x : α) : locOf v (p ++ [(b, x)]) = .fld b := by
  unfold locOf
  rw [List.getLast?_concat]

theorem get_locOf {s : St α} {v : Nat} {h m : Option Nat} {p : List (Nat × α)}
    (hv : s.vars[v]? = some (some h)) (hp : Pre s m h p) : s.get (locOf v p) = .ok m := by
  rcases List.eq_nil_or_concat p with rfl | ⟨p, y, rfl⟩
  · have : h = m := hp
    subst this
    rw [locOf_nil]
    unfold St.get
    dsimp only
    rw [hv]
  · obtain ⟨b, x⟩ := y
    rw [List.concat_eq_append, locOf_snoc]
    rw [List.concat_eq_append] at hp
    obtain ⟨k, _, _, n, e, h5⟩ := pre_append.1 hp
    have : n = m := h5
    subst this
    unfold St.get
    dsimp only
    rw [e]

theorem locate_ok {s : St α} {v : Nat} {h m : Option Nat} (hv : s.vars[v]? = some (some h)) :
    ∀ (n : Nat) {p : List (Nat × α)}, p.length = n → Pre s m h p → locate s v n = .ok (locOf v p)
  | 0, p, hl, hp => by
    have : p = [] := List.eq_nil_of_length_eq_zero hl
    subst this
    unfold locate
    rw [hv]
    rfl
  | n + 1, p, hl, hp => by
    rcases List.eq_nil_or_concat p with rfl | ⟨p, y, rfl⟩
    · simp at hl
    · obtain ⟨b, x⟩ := y
      rw [List.concat_eq_append] at hp hl ⊢
      rw [locOf_snoc]
      obtain ⟨k, h1, h2, n', e, _⟩ := pre_append.1 hp
      subst h2
      unfold locate
      simp only [bind, Except.bind]
      rw [locate_ok hv n (by simpa using hl) h1]
      dsimp only
      rw [get_locOf hv h1]
      dsimp only
      rw [e]

theorem locate_die {s : St α} {v : Nat} {h : Option Nat} (hv : s.vars[v]? = some (some h))
    {p : List (Nat × α)} (hp : Pre s none h p) : ∀ n, locate s v (p.length + n + 1) = .error .die
  | 0 => by
    unfold locate
    simp only [bind, Except.bind]
    rw [locate_ok hv _ rfl hp]
    dsimp only
    rw [get_locOf hv hp]
  | n + 1 => by
    unfold locate
    simp only [bind, Except.bind]
    rw [show p.length + (n + 1) = p.length + n + 1 by omega, locate_die hv hp n]

theorem locate_ub {s : St α} {v : Nat} (hv : (s.vars[v]?).join = none) : ∀ n, locate s v n = .error .ub
  | 0 => by
    unfold locate
    split
    · rename_i e; rw [e] at hv; simp at hv
    · rfl
  | n + 1 => by
    unfold locate
    simp only [bind, Except.bind]
    rw [locate_ub hv n]

/-- Writing a link redirects the chain through it and changes nothing else. -/
theorem set_ok {s : St α} {v : Nat} {h m : Option Nat} {p : List (Nat × α)} (h' : Option Nat)
    (hv : s.vars[v]? = some (some h)) (hp : Pre s m h p) (hn : (ids p).Nodup) :
    ∃ s' g, s.set (locOf v p) h' = .ok s' ∧ s'.vars = s.vars.set v (some g) ∧ Pre s' h' g p ∧
      s'.dead = s.dead ∧ s'.blks.length = s.blks.length ∧ (∀ c, (s'.blk c).isSome = (s.blk c).isSome) ∧
      ∀ c, c ∉ ids p → s'.blk c = s.blk c := by
  have hv' := (List.getElem?_eq_some_iff.1 hv)
  rcases List.eq_nil_or_concat p with rfl | ⟨p, y, rfl⟩
  · rw [locOf_nil]
    unfold St.set
    dsimp only
    rw [hv]
    exact ⟨_, h', rfl, rfl, rfl, rfl, rfl, fun _ => rfl, fun _ _ => rfl⟩
  · obtain ⟨b, x⟩ := y
    rw [List.concat_eq_append] at hp hn ⊢
    rw [locOf_snoc]
    obtain ⟨k, h1, h2, n', e, _⟩ := pre_append.1 hp
    have hb : b < s.blks.length := blk_lt (by simp [e])
    have hnb : b ∉ ids p := by
      simp only [ids, List.map_append, List.map_cons, List.map_nil] at hn
      have := (List.nodup_append.1 hn).2.2
      intro hm
      exact this b hm b (by simp) rfl
    unfold St.set
    dsimp only
    rw [e]
    refine ⟨_, h, rfl, ?_, pre_append.2 ⟨k, h1.frame fun c hc => ?_, h2, h', ?_, rfl⟩, rfl, by simp [St.setBlk],
      fun c => ?_, fun c hc => ?_⟩
    · show s.vars = _
      rw [← hv'.2, List.set_getElem_self]
    · rw [blk_set hb, if_neg (fun q => hnb (by rw [← q]; exact hc))]
    · rw [blk_set hb, if_pos rfl]
    · rw [blk_set hb]
      split
      · rename_i q; subst q; simp [e]
      · rfl
    · rw [blk_set hb, if_neg]
      intro q
      subst q
      exact hc (by simp)

/-- Chains by owner: `none` is a box in the hands of the operation that runs, `some i` is variable `i`. -/
abbrev Own (α : Type) := Option Nat → Option (List (Nat × α))

/-- Where a chain starts. -/
def root (s : St α) (th : Option Nat) : Option Nat → Option (Option Nat)
  | none => some th
  | some i => (s.vars[i]?).join

/-- Give `i` another chain. -/
def upd (own : Own α) (i : Option Nat) (r : Option (List (Nat × α))) : Own α :=
  fun j => if j = i then r else own j

/-- Every block alive is part of exactly one chain, every other one was destroyed once. -/
structure Rep (s : St α) (th : Option Nat) (own : Own α) : Prop where
  var : ∀ i r, own i = some r → ∃ h, root s th i = some h ∧ Pre s none h r
  out : ∀ i, own i = none → root s th i = none
  nodup : ∀ i r, own i = some r → (ids r).Nodup
  uniq : ∀ i j r r' b, own i = some r → own j = some r' → b ∈ ids r → b ∈ ids r' → i = j
  live : ∀ b, (s.blk b).isSome → ∃ i r, own i = some r ∧ b ∈ ids r
  dead : s.dead.Nodup
  gone : ∀ b, b ∈ s.dead ↔ b < s.blks.length ∧ s.blk b = none

theorem root_var {s : St α} {th h : Option Nat} {v : Nat} (e : root s th (some v) = some h) :
    s.vars[v]? = some (some h) := by
  unfold root at e
  dsimp only at e
  rcases hq : s.vars[v]? with _ | o
  · rw [hq] at e; simp at e
  · rw [hq] at e; simp at e; rw [e]

theorem Rep.varAt {s : St α} {th : Option Nat} {own : Own α} (R : Rep s th own) {v : Nat}
    {r : List (Nat × α)} (e : own (some v) = some r) :
    ∃ h, s.vars[v]? = some (some h) ∧ Pre s none h r := by
  obtain ⟨h, h1, h2⟩ := R.var _ _ e
  exact ⟨h, root_var h1, h2⟩

theorem root_set {s s' : St α} {th th' h0 g : Option Nat} {v i : Nat} (hv : s.vars[v]? = some (some h0))
    (e : s'.vars = s.vars.set v (some g)) :
    root s' th' (some i) = if i = v then some g else root s th (some i) := by
  unfold root
  dsimp only
  rw [e, List.getElem?_set]
  have := (List.getElem?_eq_some_iff.1 hv).1
  by_cases q : v = i
  · subst q; simp [this]
  · rw [if_neg q, if_neg (fun x => q x.symm)]

/-- A box is moved out of a link. -/
theorem take_ok {s : St α} {own : Own α} (R : Rep s none own) (h0 : own none = some []) {v : Nat}
    {p r : List (Nat × α)} (e : own (some v) = some (p ++ r)) :
    ∃ h s', s.get (locOf v p) = .ok h ∧ s.set (locOf v p) none = .ok s' ∧ s'.vars.length = s.vars.length ∧
      Rep s' h (upd (upd own (some v) (some p)) none (some r)) := by
  obtain ⟨h, hv, hp⟩ := R.varAt e
  obtain ⟨m, hp, hr⟩ := pre_append.1 hp
  have hn := R.nodup _ _ e
  have hn' := hn
  simp only [ids, List.map_append] at hn
  have hnp := List.nodup_append.1 hn
  obtain ⟨s', g, e1, e2, e3, e4, e5, e6, e7⟩ := set_ok none hv hp hnp.1
  refine ⟨m, s', get_locOf hv hp, e1, by rw [e2]; simp, ?_⟩
  have hmem : ∀ b, b ∈ ids (p ++ r) ↔ b ∈ ids p ∨ b ∈ ids r := by intro b; simp only [ids, List.map_append, List.mem_append]
  refine ⟨?_, ?_, ?_, ?_, ?_, by rw [e4]; exact R.dead, ?_⟩
  · rintro (_ | i) r' hr'
    · simp only [upd, if_pos] at hr'
      cases hr'
      exact ⟨m, rfl, hr.frame fun c hc => e7 c (fun q => hnp.2.2 c q c hc rfl)⟩
    · simp only [upd, reduceCtorEq, if_false, Option.some.injEq] at hr'
      rw [root_set hv e2 (th := none)]
      by_cases hi : i = v
      · subst hi
        simp only [if_true, Option.some.injEq] at hr'
        subst hr'
        exact ⟨g, by simp, e3⟩
      · rw [if_neg hi] at hr' ⊢
        obtain ⟨h1, q1, q2⟩ := R.var _ _ hr'
        refine ⟨h1, q1, q2.frame fun c hc => e7 c fun q => hi ?_⟩
        have := R.uniq _ _ _ _ c hr' e hc ((hmem c).2 (.inl q))
        simpa using this
  · rintro (_ | i) hi
    · simp [upd] at hi
    · simp only [upd, reduceCtorEq, if_false, Option.some.injEq] at hi
      rw [root_set hv e2 (th := none)]
      by_cases hi' : i = v
      · simp [hi'] at hi
      · rw [if_neg hi'] at hi ⊢
        exact R.out _ hi
  · rintro (_ | i) r' hr'
    · simp only [upd, if_pos] at hr'
      cases hr'
      exact hnp.2.1
    · simp only [upd, reduceCtorEq, if_false, Option.some.injEq] at hr'
      by_cases hi : i = v
      · simp only [hi, if_true, Option.some.injEq] at hr'
        subst hr'
        exact hnp.1
      · rw [if_neg hi] at hr'
        exact R.nodup _ _ hr'
  · have key : ∀ i r', upd (upd own (some v) (some p)) none (some r) i = some r' → ∀ b, b ∈ ids r' →
        (i = none ∧ b ∈ ids r) ∨ (i = some v ∧ b ∈ ids p) ∨
          (i ≠ none ∧ i ≠ some v ∧ own i = some r') := by
      intro i r' hi b hb
      simp only [upd] at hi
      split at hi
      · cases hi; exact .inl ⟨by assumption, hb⟩
      · split at hi
        · cases hi; exact .inr (.inl ⟨by assumption, hb⟩)
        · exact .inr (.inr ⟨by assumption, by assumption, hi⟩)
    intro i j r1 r2 b hi hj hb1 hb2
    rcases key i r1 hi b hb1 with ⟨hi, q1⟩ | ⟨hi, q1⟩ | ⟨hi, hi', q1⟩ <;>
      rcases key j r2 hj b hb2 with ⟨hj, q2⟩ | ⟨hj, q2⟩ | ⟨hj, hj', q2⟩
    · rw [hi, hj]
    · exact absurd rfl (hnp.2.2 b q2 b q1)
    · exact absurd (R.uniq _ _ _ _ b e q2 ((hmem b).2 (.inr q1)) hb2) (fun q => hj' q.symm)
    · exact absurd rfl (hnp.2.2 b q1 b q2)
    · rw [hi, hj]
    · exact absurd (R.uniq _ _ _ _ b e q2 ((hmem b).2 (.inl q1)) hb2) (fun q => hj' q.symm)
    · exact absurd (R.uniq _ _ _ _ b e q1 ((hmem b).2 (.inr q2)) hb1) (fun q => hi' q.symm)
    · exact absurd (R.uniq _ _ _ _ b e q1 ((hmem b).2 (.inl q2)) hb1) (fun q => hi' q.symm)
    · exact R.uniq _ _ _ _ b q1 q2 hb1 hb2
  · intro b hb
    rw [e6] at hb
    obtain ⟨i, r', q1, q2⟩ := R.live b hb
    by_cases hi : i = some v
    · subst hi
      rw [e] at q1
      cases q1
      rcases (hmem b).1 q2 with q | q
      · exact ⟨some v, p, by simp [upd], q⟩
      · exact ⟨none, r, by simp [upd], q⟩
    · by_cases hi' : i = none
      · subst hi'
        rw [h0] at q1
        cases q1
        simp at q2
      · exact ⟨i, r', by simp [upd, hi, hi', q1], q2⟩
  · intro b
    rw [e4, R.gone, e5]
    have := e6 b
    constructor
    · rintro ⟨q1, q2⟩
      rw [q2] at this
      exact ⟨q1, by simpa using this⟩
    · rintro ⟨q1, q2⟩
      rw [q2] at this
      exact ⟨q1, by simpa using this.symm⟩

/-- A box is moved into an empty link. -/
theorem put_ok {s : St α} {th : Option Nat} {own : Own α} (R : Rep s th own) {v : Nat}
    {p t : List (Nat × α)} (h0 : own none = some t) (e : own (some v) = some p) :
    ∃ s', s.set (locOf v p) th = .ok s' ∧ s'.vars.length = s.vars.length ∧
      Rep s' none (upd (upd own (some v) (some (p ++ t))) none (some [])) := by
  obtain ⟨h, hv, hp⟩ := R.varAt e
  have hnp := R.nodup _ _ e
  have hnt := R.nodup _ _ h0
  obtain ⟨h1, q1, ht⟩ := R.var _ _ h0
  have q1 : th = h1 := by simpa [root] using q1
  subst q1
  have hdis : ∀ b, b ∈ ids p → b ∈ ids t → False := fun b x y => by
    have := R.uniq _ _ _ _ b e h0 x y
    simp at this
  obtain ⟨s', g, e1, e2, e3, e4, e5, e6, e7⟩ := set_ok th hv hp hnp
  refine ⟨s', e1, by rw [e2]; simp, ?_⟩
  have hmem : ∀ b, b ∈ ids (p ++ t) ↔ b ∈ ids p ∨ b ∈ ids t := by intro b; simp only [ids, List.map_append, List.mem_append]
  refine ⟨?_, ?_, ?_, ?_, ?_, by rw [e4]; exact R.dead, ?_⟩
  · rintro (_ | i) r' hr'
    · simp only [upd, if_pos] at hr'
      cases hr'
      exact ⟨none, rfl, rfl⟩
    · simp only [upd, reduceCtorEq, if_false, Option.some.injEq] at hr'
      rw [root_set hv e2 (th := th)]
      by_cases hi : i = v
      · subst hi
        simp only [if_true, Option.some.injEq] at hr'
        subst hr'
        exact ⟨g, by simp, pre_append.2 ⟨th, e3, ht.frame fun c hc => e7 c fun q => hdis c q hc⟩⟩
      · rw [if_neg hi] at hr' ⊢
        obtain ⟨h1, q1, q2⟩ := R.var _ _ hr'
        refine ⟨h1, q1, q2.frame fun c hc => e7 c fun q => hi ?_⟩
        have := R.uniq _ _ _ _ c hr' e hc q
        simpa using this
  · rintro (_ | i) hi
    · simp [upd] at hi
    · simp only [upd, reduceCtorEq, if_false, Option.some.injEq] at hi
      rw [root_set hv e2 (th := th)]
      by_cases hi' : i = v
      · simp [hi'] at hi
      · rw [if_neg hi'] at hi ⊢
        exact R.out _ hi
  · rintro (_ | i) r' hr'
    · simp only [upd, if_pos] at hr'
      cases hr'
      simp
    · simp only [upd, reduceCtorEq, if_false, Option.some.injEq] at hr'
      by_cases hi : i = v
      · simp only [hi, if_true, Option.some.injEq] at hr'
        subst hr'
        simp only [ids, List.map_append]
        exact List.nodup_append.2 ⟨hnp, hnt, fun a x b y q => hdis a x (q ▸ y)⟩
      · rw [if_neg hi] at hr'
        exact R.nodup _ _ hr'
  · have key : ∀ i r', upd (upd own (some v) (some (p ++ t))) none (some []) i = some r' → ∀ b, b ∈ ids r' →
        (i = some v ∧ (b ∈ ids p ∨ b ∈ ids t)) ∨ (i ≠ none ∧ i ≠ some v ∧ own i = some r') := by
      intro i r' hi b hb
      simp only [upd] at hi
      split at hi
      · cases hi; simp at hb
      · split at hi
        · cases hi; exact .inl ⟨by assumption, (hmem b).1 hb⟩
        · exact .inr ⟨by assumption, by assumption, hi⟩
    intro i j r1 r2 b hi hj hb1 hb2
    rcases key i r1 hi b hb1 with ⟨hi, q1⟩ | ⟨hi, hi', q1⟩ <;>
      rcases key j r2 hj b hb2 with ⟨hj, q2⟩ | ⟨hj, hj', q2⟩
    · rw [hi, hj]
    · rcases q1 with q1 | q1
      · exact absurd (R.uniq _ _ _ _ b e q2 q1 hb2) (fun q => hj' q.symm)
      · exact absurd (R.uniq _ _ _ _ b h0 q2 q1 hb2) (fun q => hj q.symm)
    · rcases q2 with q2 | q2
      · exact absurd (R.uniq _ _ _ _ b e q1 q2 hb1) (fun q => hi' q.symm)
      · exact absurd (R.uniq _ _ _ _ b h0 q1 q2 hb1) (fun q => hi q.symm)
    · exact R.uniq _ _ _ _ b q1 q2 hb1 hb2
  · intro b hb
    rw [e6] at hb
    obtain ⟨i, r', q1, q2⟩ := R.live b hb
    by_cases hi : i = some v
    · subst hi
      rw [e] at q1
      cases q1
      exact ⟨some v, p ++ t, by simp [upd], (hmem b).2 (.inl q2)⟩
    · by_cases hi' : i = none
      · subst hi'
        rw [h0] at q1
        cases q1
        exact ⟨some v, p ++ t, by simp [upd], (hmem b).2 (.inr q2)⟩
      · exact ⟨i, r', by simp [upd, hi, hi', q1], q2⟩
  · intro b
    rw [e4, R.gone, e5]
    have := e6 b
    constructor
    · rintro ⟨q1, q2⟩
      rw [q2] at this
      exact ⟨q1, by simpa using this⟩
    · rintro ⟨q1, q2⟩
      rw [q2] at this
      exact ⟨q1, by simpa using this.symm⟩

theorem upd_self (own : Own α) (i : Option Nat) : upd own i (own i) = own := by
  funext j
  unfold upd
  split
  · rename_i e; rw [e]
  · rfl

theorem nodup_len : ∀ (n : Nat) (l : List Nat), l.Nodup → (∀ b ∈ l, b < n) → l.length ≤ n := by
  intro n l hn hb
  have := hn.subperm (l₂ := List.range n) (fun b h => List.mem_range.2 (hb b h))
  simpa using this.length_le

/-- A link is destroyed: all that hangs on it, and nothing else. -/
theorem dtor_ok {s : St α} {own : Own α} (R : Rep s none own) (h0 : own none = some []) {v : Nat}
    {p r : List (Nat × α)} (e : own (some v) = some (p ++ r)) :
    ∃ s', dtor s (locOf v p) = .ok s' ∧ s'.vars.length = s.vars.length ∧ s'.blks.length = s.blks.length ∧
      (∀ b, b ∈ ids r → s'.blk b = none) ∧
      Rep s' none (upd own (some v) (some p)) := by
  obtain ⟨h, hv, hp⟩ := R.varAt e
  obtain ⟨m, hp, hr⟩ := pre_append.1 hp
  have hn := R.nodup _ _ e
  simp only [ids, List.map_append] at hn
  have hnp := List.nodup_append.1 hn
  have hmem : ∀ b, b ∈ ids (p ++ r) ↔ b ∈ ids p ∨ b ∈ ids r := by intro b; simp only [ids, List.map_append, List.mem_append]
  unfold dtor
  simp only [bind, Except.bind]
  rw [get_locOf hv hp]
  cases r with
  | nil =>
    have : m = none := hr
    subst this
    refine ⟨s, rfl, rfl, rfl, fun b hb => by simp at hb, ?_⟩
    have e' : own (some v) = some p := by simpa using e
    rw [← e', upd_self]
    exact R
  | cons y r =>
    obtain ⟨b, x⟩ := y
    have hr' := hr
    obtain ⟨rfl, n, hb, _⟩ := hr'
    dsimp only
    have hlen : (ids ((b, x) :: r)).length ≤ s.blks.length :=
      nodup_len _ _ hnp.2.1 (fun c hc => blk_lt (hr.alive c hc))
    obtain ⟨s1, e1, e2, e3, e4, e5⟩ := destroy_ok (s.blks.length + 1) s b x r hr hnp.2.1
      (by simp at hlen; omega)
    rw [e1]
    dsimp only
    have hp1 : Pre s1 (some b) h p := hp.frame fun c hc => by
      rw [e5, if_neg (fun q => hnp.2.2 c hc c q rfl)]
    obtain ⟨s', g, f1, f2, f3, f4, f5, f6, f7⟩ := set_ok none (by rw [e2]; exact hv) hp1 hnp.1
    have hblk : ∀ c, c ∉ ids p → s'.blk c = if c ∈ ids ((b, x) :: r) then none else s.blk c := by
      intro c hc
      rw [f7 c hc, e5]
    have hsome : ∀ c, (s'.blk c).isSome = (!decide (c ∈ ids ((b, x) :: r)) && (s.blk c).isSome) := by
      intro c
      rw [f6, e5]
      by_cases q : c ∈ ids ((b, x) :: r)
      · simp only [if_pos q, q, decide_true]; rfl
      · simp only [if_neg q, q, decide_false]; rfl
    refine ⟨s', f1, by rw [f2, e2]; simp, by rw [f5, e3], ?_, ?_⟩
    · intro c hc
      rw [hblk c (fun q => hnp.2.2 c q c hc rfl), if_pos hc]
    have f2' : s'.vars = s.vars.set v (some g) := by rw [f2, e2]
    have hoth : ∀ i r', own i = some r' → i ≠ some v → ∀ c ∈ ids r', c ∉ ids p ∧ c ∉ ids ((b, x) :: r) := by
      intro i r' hi hiv c hc
      constructor
      · intro q; exact hiv (R.uniq _ _ _ _ c hi e hc ((hmem c).2 (.inl q)))
      · intro q; exact hiv (R.uniq _ _ _ _ c hi e hc ((hmem c).2 (.inr q)))
    refine ⟨?_, ?_, ?_, ?_, ?_, ?_, ?_⟩
    · intro i r' hi
      by_cases hiv : i = some v
      · subst hiv
        simp only [upd, if_true, Option.some.injEq] at hi
        subst hi
        exact ⟨g, by rw [root_set hv f2' (th := none)]; simp, f3⟩
      · simp only [upd, if_neg hiv] at hi
        obtain ⟨h1, q1, q2⟩ := R.var _ _ hi
        refine ⟨h1, ?_, q2.frame fun c hc => ?_⟩
        · cases i with
          | none => exact q1
          | some i =>
            rw [root_set hv f2' (th := none), if_neg (fun q => hiv (by rw [q]))]
            exact q1
        · have := hoth _ _ hi hiv c hc
          rw [hblk c this.1, if_neg this.2]
    · intro i hi
      by_cases hiv : i = some v
      · simp [upd, hiv] at hi
      · simp only [upd, if_neg hiv] at hi
        cases i with
        | none => rw [h0] at hi; cases hi
        | some i =>
          rw [root_set hv f2' (th := none), if_neg (fun q => hiv (by rw [q]))]
          exact R.out _ hi
    · intro i r' hi
      by_cases hiv : i = some v
      · simp only [upd, if_pos hiv, Option.some.injEq] at hi
        subst hi
        exact hnp.1
      · simp only [upd, if_neg hiv] at hi
        exact R.nodup _ _ hi
    · have key : ∀ i r', upd own (some v) (some p) i = some r' → ∃ r'', own i = some r'' ∧
          ∀ c ∈ ids r', c ∈ ids r'' := by
        intro i r' hi
        by_cases hiv : i = some v
        · simp only [upd, if_pos hiv, Option.some.injEq] at hi
          subst hi
          exact ⟨_, by rw [hiv]; exact e, fun c hc => (hmem c).2 (.inl hc)⟩
        · simp only [upd, if_neg hiv] at hi
          exact ⟨r', hi, fun _ q => q⟩
      intro i j r1 r2 c hi hj q1 q2
      obtain ⟨_, a1, a2⟩ := key _ _ hi
      obtain ⟨_, b1, b2⟩ := key _ _ hj
      exact R.uniq _ _ _ _ c a1 b1 (a2 c q1) (b2 c q2)
    · intro c hc
      rw [hsome] at hc
      simp only [Bool.and_eq_true, Bool.not_eq_true', decide_eq_false_iff_not] at hc
      obtain ⟨i, r', q1, q2⟩ := R.live c hc.2
      by_cases hiv : i = some v
      · subst hiv
        rw [e] at q1
        cases q1
        exact ⟨some v, p, by simp [upd], ((hmem c).1 q2).resolve_right hc.1⟩
      · exact ⟨i, r', by simp [upd, hiv, q1], q2⟩
    · rw [f4, e4]
      refine List.nodup_append.2 ⟨R.dead, List.nodup_reverse.2 hnp.2.1, fun c hc d hd q => ?_⟩
      subst q
      have := ((R.gone c).1 hc).2
      have h2 := hr.alive c (List.mem_reverse.1 hd)
      rw [this] at h2
      simp at h2
    · intro c
      rw [f4, e4, List.mem_append, List.mem_reverse, R.gone, f5, e3]
      have := hsome c
      by_cases q : c ∈ ids ((b, x) :: r)
      · have hl := blk_lt (hr.alive c q)
        simp only [q, decide_true, Bool.not_true, Bool.false_and, Option.isSome_eq_false_iff,
          Option.isNone_iff_eq_none] at this
        simp only [q, or_true, true_iff]
        exact ⟨hl, this⟩
      · simp only [q, decide_false, Bool.not_false, Bool.true_and, or_false] at this ⊢
        constructor
        · rintro ⟨x1, x2⟩
          rw [x2] at this
          exact ⟨x1, by simpa using this⟩
        · rintro ⟨x1, x2⟩
          rw [x2] at this
          exact ⟨x1, by simpa using this.symm⟩

/-- New blocks enter the picture as the chain in the hands of the operation. -/
theorem new_ok {s s' : St α} {h : Option Nat} {own : Own α} {r : List (Nat × α)} (R : Rep s none own)
    (h0 : own none = some []) (hr : Pre s' none h r) (hv : s'.vars = s.vars) (hd : s'.dead = s.dead)
    (hl : s.blks.length ≤ s'.blks.length) (hn : (ids r).Nodup)
    (hm : ∀ b, b ∈ ids r ↔ s.blks.length ≤ b ∧ b < s'.blks.length)
    (hf : ∀ c, c < s.blks.length → s'.blk c = s.blk c) : Rep s' h (upd own none (some r)) := by
  have hlt : ∀ i r', own i = some r' → ∀ c ∈ ids r', c < s.blks.length := by
    intro i r' hi c hc
    obtain ⟨h1, _, q⟩ := R.var _ _ hi
    exact blk_lt (q.alive c hc)
  refine ⟨?_, ?_, ?_, ?_, ?_, by rw [hd]; exact R.dead, ?_⟩
  · intro i r' hi
    by_cases hin : i = none
    · simp only [upd, if_pos hin, Option.some.injEq] at hi
      subst hi hin
      exact ⟨h, rfl, hr⟩
    · simp only [upd, if_neg hin] at hi
      obtain ⟨h1, q1, q2⟩ := R.var _ _ hi
      refine ⟨h1, ?_, q2.frame fun c hc => hf c (hlt _ _ hi c hc)⟩
      cases i with
      | none => exact absurd rfl hin
      | some i => unfold root at q1 ⊢; dsimp only at q1 ⊢; rw [hv]; exact q1
  · intro i hi
    by_cases hin : i = none
    · simp [upd, hin] at hi
    · simp only [upd, if_neg hin] at hi
      cases i with
      | none => exact absurd rfl hin
      | some i =>
        have := R.out _ hi
        unfold root at this ⊢; dsimp only at this ⊢; rw [hv]; exact this
  · intro i r' hi
    by_cases hin : i = none
    · simp only [upd, if_pos hin, Option.some.injEq] at hi
      subst hi
      exact hn
    · simp only [upd, if_neg hin] at hi
      exact R.nodup _ _ hi
  · intro i j r1 r2 c hi hj q1 q2
    by_cases hin : i = none <;> by_cases hjn : j = none
    · rw [hin, hjn]
    · simp only [upd, if_pos hin, if_neg hjn, Option.some.injEq] at hi hj
      subst hi
      have := hlt _ _ hj c q2
      have := (hm c).1 q1
      omega
    · simp only [upd, if_pos hjn, if_neg hin, Option.some.injEq] at hi hj
      subst hj
      have := hlt _ _ hi c q1
      have := (hm c).1 q2
      omega
    · simp only [upd, if_neg hjn, if_neg hin] at hi hj
      exact R.uniq _ _ _ _ c hi hj q1 q2
  · intro c hc
    by_cases hcl : c < s.blks.length
    · rw [hf c hcl] at hc
      obtain ⟨i, r', q1, q2⟩ := R.live c hc
      by_cases hin : i = none
      · subst hin
        rw [h0] at q1
        cases q1
        simp at q2
      · exact ⟨i, r', by simp [upd, hin, q1], q2⟩
    · exact ⟨none, r, by simp [upd], (hm c).2 ⟨by omega, blk_lt hc⟩⟩
  · intro c
    rw [hd, R.gone]
    constructor
    · rintro ⟨x1, x2⟩
      exact ⟨by omega, by rw [hf c x1]; exact x2⟩
    · rintro ⟨x1, x2⟩
      by_cases hcl : c < s.blks.length
      · exact ⟨hcl, by rw [← hf c hcl]; exact x2⟩
      · have := hr.alive c ((hm c).2 ⟨by omega, x1⟩)
        rw [x2] at this
        simp at this

theorem alloc_ok {s : St α} {own : Own α} (R : Rep s none own) (h0 : own none = some []) (a : α) :
    Rep (alloc s a none).1 (some (alloc s a none).2) (upd own none (some [((alloc s a none).2, a)])) := by
  refine new_ok R h0 ⟨rfl, none, by simp [alloc, St.blk], rfl⟩ rfl rfl (by simp [alloc]) (by simp) (fun b => ?_) (fun c hc => ?_)
  · simp [alloc]; omega
  · simp only [alloc, St.blk]
    rw [List.getElem?_append_left hc]

/-- The box in the hands of the operation becomes a variable. -/
theorem declare_ok {s : St α} {th : Option Nat} {own : Own α} (R : Rep s th own) {t : List (Nat × α)}
    (h0 : own none = some t) :
    Rep (s.declare th) none (upd (upd own (some s.vars.length) (some t)) none (some [])) := by
  have hb : ∀ c, (s.declare th).blk c = s.blk c := fun _ => rfl
  have hout : own (some s.vars.length) = none := by
    rcases hq : own (some s.vars.length) with _ | r
    · rfl
    · obtain ⟨h, h1, _⟩ := R.varAt hq
      have := (List.getElem?_eq_some_iff.1 h1).1
      omega
  have hroot : ∀ i, i ≠ s.vars.length → root (s.declare th) none (some i) = root s th (some i) := by
    intro i hi
    unfold root St.declare
    dsimp only
    by_cases hl : i < s.vars.length
    · rw [List.getElem?_append_left hl]
    · rw [List.getElem?_eq_none (by simp; omega), List.getElem?_eq_none (by omega)]
  have key : ∀ i r', upd (upd own (some s.vars.length) (some t)) none (some []) i = some r' → ∀ b, b ∈ ids r' →
      (i = some s.vars.length ∧ own none = some r') ∨ (i ≠ none ∧ i ≠ some s.vars.length ∧ own i = some r') := by
    intro i r' hi b hb
    simp only [upd] at hi
    split at hi
    · cases hi; simp at hb
    · split at hi
      · cases hi; exact .inl ⟨by assumption, h0⟩
      · exact .inr ⟨by assumption, by assumption, hi⟩
  refine ⟨?_, ?_, ?_, ?_, ?_, R.dead, R.gone⟩
  · rintro (_ | i) r' hr'
    · simp only [upd, if_pos] at hr'
      cases hr'
      exact ⟨none, rfl, rfl⟩
    · simp only [upd, reduceCtorEq, if_false, Option.some.injEq] at hr'
      by_cases hi : i = s.vars.length
      · simp only [hi, if_true, Option.some.injEq] at hr'
        subst hr' hi
        obtain ⟨h, q1, q2⟩ := R.var _ _ h0
        refine ⟨h, ?_, q2.frame fun c _ => hb c⟩
        rw [← q1]
        simp [root, St.declare]
      · rw [if_neg hi] at hr'
        obtain ⟨h, q1, q2⟩ := R.var _ _ hr'
        exact ⟨h, by rw [hroot i hi]; exact q1, q2.frame fun c _ => hb c⟩
  · rintro (_ | i) hi
    · simp [upd] at hi
    · simp only [upd, reduceCtorEq, if_false, Option.some.injEq] at hi
      by_cases hi' : i = s.vars.length
      · simp [hi'] at hi
      · rw [if_neg hi'] at hi
        rw [hroot i hi']
        exact R.out _ hi
  · intro i r' hi
    simp only [upd] at hi
    split at hi
    · cases hi; simp
    · split at hi
      · cases hi; exact R.nodup _ _ h0
      · exact R.nodup _ _ hi
  · intro i j r1 r2 b hi hj q1 q2
    rcases key _ _ hi b q1 with ⟨a1, a2⟩ | ⟨a1, a1', a2⟩ <;> rcases key _ _ hj b q2 with ⟨b1, b2⟩ | ⟨b1, b1', b2⟩
    · rw [a1, b1]
    · exact absurd (R.uniq _ _ _ _ b a2 b2 q1 q2) (fun q => b1 q.symm)
    · exact absurd (R.uniq _ _ _ _ b a2 b2 q1 q2) a1
    · exact R.uniq _ _ _ _ b a2 b2 q1 q2
  · intro b hbb
    obtain ⟨i, r', q1, q2⟩ := R.live b hbb
    by_cases hi : i = none
    · subst hi
      rw [h0] at q1
      cases q1
      exact ⟨some s.vars.length, t, by simp [upd], q2⟩
    · have hi' : i ≠ some s.vars.length := fun q => by rw [q, hout] at q1; cases q1
      exact ⟨i, r', by simp [upd, hi, hi', q1], q2⟩

end Rpp.BoxM
