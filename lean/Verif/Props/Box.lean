import Verif.Proof.BoxRun

/-!
# `Box`: theorems

Programs build, move, clone, overwrite and destroy boxes in variables and inside of each other. The values
are seen through `*p`; the blocks of memory are observed separately.
-/

namespace Rpp.Props
open Rpp.BoxM Rpp.Spec

variable {α : Type}

/-- C94: a program with boxes behaves as the same program on plain lists: it fails where the other fails (an
access through null), and afterwards every path reads the same in both. In particular a clone shares nothing
with its source. -/
theorem C94_box_is_value_partial (ops : List (Op α)) (hl : ∀ op ∈ ops, boxLegal op) :
    (∀ e, boxRun [] ops = .error e → run St.init ops = .error e) ∧
    (∀ vs, boxRun [] ops = .ok vs → ∃ s, run St.init ops = .ok s ∧ ∀ p, BoxM.read s p = boxRead vs p) := by
  have h := run_ok ops inv_init hl
  constructor
  · intro e he
    rw [he] at h
    exact h
  · intro vs hv
    rw [hv] at h
    obtain ⟨s, own, h1, I⟩ := h
    refine ⟨s, h1, fun p => ?_⟩
    rw [I.read p]
    rfl

theorem box_inv {ops : List (Op α)} (hl : ∀ op ∈ ops, boxLegal op) {s : St α} (h : run St.init ops = .ok s) :
    ∃ own vs, boxRun [] ops = .ok vs ∧ Inv s own vs := by
  have h' := run_ok ops inv_init hl
  rcases hb : boxRun [] ops with e | vs
  · rw [hb] at h'
    dsimp only at h'
    rw [h] at h'
    cases h'
  · rw [hb] at h'
    obtain ⟨s', own, h1, I⟩ := h'
    rw [h] at h1
    cases h1
    exact ⟨own, vs, rfl, I⟩

/-- C94: at any time, each block that was not destroyed is held by exactly one box, which the program can
reach from a variable; a box is null or holds a block that is alive; each block was destroyed at most once. -/
theorem C94_one_owner_partial (ops : List (Op α)) (hl : ∀ op ∈ ops, boxLegal op) (s : St α)
    (h : run St.init ops = .ok s) :
    s.dead.Nodup ∧ (∀ b < s.blks.length, b ∈ s.dead ∨
      ∃ p : Path, (locate s p.var p.steps >>= s.get) = .ok (some b) ∧
        ∀ p' : Path, (locate s p'.var p'.steps >>= s.get) = .ok (some b) → p' = p) ∧
    (∀ (p : Path) (b : Nat), (locate s p.var p.steps >>= s.get) = .ok (some b) →
      b < s.blks.length ∧ b ∉ s.dead) := by
  obtain ⟨own, vs, _, I⟩ := box_inv hl h
  refine ⟨I.rep.dead, fun b hb => ?_, fun p b hp => ?_⟩
  · by_cases hd : b ∈ s.dead
    · exact .inl hd
    · right
      apply I.owner
      rcases hq : s.blk b with _ | k
      · exact absurd ((I.rep.gone b).2 ⟨hb, hq⟩) hd
      · rfl
  · have : (s.blk b).isSome := by
      simp only [bind, Except.bind] at hp
      rcases I.link p with ⟨l, a, c, e1, e2, rfl, e4, e5, e6⟩ | ⟨e, e1, e2⟩
      · rw [e5] at hp
        dsimp only at hp
        obtain ⟨h', hv, hq⟩ := I.rep.varAt e2
        obtain ⟨m, hq, hr⟩ := pre_append.1 hq
        rw [get_locOf hv hq] at hp
        cases hp
        cases c with
        | nil => cases hr
        | cons y c =>
          obtain ⟨q, n, hc, _⟩ := hr
          cases q
          simp [hc]
      · rw [e2] at hp
        cases hp
    refine ⟨blk_lt this, fun hd => ?_⟩
    rw [((I.rep.gone b).1 hd).2] at this
    simp at this

/-- C94: once the variables are out of scope, every block was destroyed exactly once. -/
theorem C94_all_destroyed_partial (ops : List (Op α)) (hl : ∀ op ∈ ops, boxLegal op) (s : St α)
    (h : run St.init ops = .ok s) (hout : ∀ x ∈ s.vars, x = none) :
    s.dead.Perm (List.range s.blks.length) := by
  obtain ⟨own, vs, _, I⟩ := box_inv hl h
  refine (List.perm_ext_iff_of_nodup I.rep.dead List.nodup_range).2 fun b => ?_
  rw [I.rep.gone, List.mem_range]
  refine ⟨fun q => q.1, fun q => ⟨q, ?_⟩⟩
  rcases hq : s.blk b with _ | k
  · rfl
  · obtain ⟨p, hp, _⟩ := I.owner (b := b) (by simp [hq])
    have hv : (s.vars[p.var]?).join = none := by
      rcases hv : s.vars[p.var]? with _ | o
      · rfl
      · have := hout o (List.mem_of_getElem? hv)
        subst this
        rfl
    simp only [bind, Except.bind] at hp
    rw [locate_ub hv] at hp
    cases hp

/-- A list of three built back to front, cloned, its middle link overwritten by the tail of the clone. -/
def boxProgram : List (Op Nat) :=
  [.make 3, .make 2, .assign ⟨1, 1⟩ ⟨0, 0⟩, .make 1, .assign ⟨2, 1⟩ ⟨1, 0⟩, .clone ⟨2, 0⟩,
   .write ⟨3, 2⟩ 9, .assign ⟨2, 1⟩ ⟨3, 2⟩, .move ⟨3, 1⟩, .emplace ⟨4, 1⟩ 7, .assign ⟨3, 0⟩ ⟨3, 0⟩]

example : ∀ op ∈ boxProgram, boxLegal op := by
  simp [boxProgram, boxLegal]

example : boxRun [] boxProgram = .ok [some [], some [], some [1, 9], some [], some [2, 7]] := by decide +kernel

example : (run St.init boxProgram).map (fun s => (s.dead, s.blks.length)) = .ok ([0, 1, 5], 7) := by decide +kernel

example : (run St.init (boxProgram ++ [.leave 0, .leave 1, .leave 2, .leave 3, .leave 4])).map
    (fun s => (s.dead, s.vars)) = .ok ([0, 1, 5, 3, 2, 6, 4], [none, none, none, none, none]) := by decide +kernel

/-- C94: the other assignments. `list = move(list->next)`, and any assignment to a link from a link further
down, destroys the value that holds the source before it reads the source: undefined, whatever happened
before. -/
theorem C94_assign_from_inside_ub (ops : List (Op α)) (hl : ∀ op ∈ ops, boxLegal op) (s : St α)
    (h : run St.init ops = .ok s) (p q : Path) (hv : p.var = q.var) (hs : p.steps < q.steps)
    (l : Loc) (hq : locate s q.var q.steps = .ok l) : exec s (.assign p q) = .error .ub := by
  obtain ⟨own, vs, _, I⟩ := box_inv hl h
  simp only [exec, bind, Except.bind]
  rcases I.link q with ⟨_, a', b', _, e2', rfl, e4', e5', _⟩ | ⟨e, _, e2⟩
  · rcases I.link p with ⟨_, a, b, _, e2, rfl, e4, e5, _⟩ | ⟨e, e1, _⟩
    · rw [e5, e5']
      dsimp only
      obtain ⟨s1, f1, _, _, f4, _⟩ := dtor_ok I.rep I.tmp e2
      rw [f1]
      dsimp only
      rw [hv, e2'] at e2
      have e2 := Option.some.inj e2
      obtain ⟨c, rfl⟩ : ∃ c, a' = a ++ c := by
        rcases List.append_eq_append_iff.1 e2 with ⟨c, q1, q2⟩ | ⟨c, q1, q2⟩
        · have := congrArg List.length q1
          simp at this
          omega
        · exact ⟨c, q1⟩
      rw [List.append_assoc] at e2
      have hb := List.append_cancel_left e2
      rcases List.eq_nil_or_concat c with rfl | ⟨c, y, rfl⟩
      · simp at e4'
        omega
      · obtain ⟨d, y⟩ := y
        rw [List.concat_eq_append, ← List.append_assoc, locOf_snoc]
        have : s1.blk d = none := f4 d (by rw [← hb]; simp [ids])
        unfold St.get
        dsimp only
        rw [this]
    · exfalso
      have hlink : ∀ l, boxLink vs q = .ok l → boxLink vs p = .ok l := by
        intro l
        unfold boxLink
        rw [hv]
        split
        · split
          · intro h; rw [if_pos (by omega)]; exact h
          · intro h; cases h
        · intro h; cases h
      have := hlink _ (by assumption)
      rw [e1] at this
      cases this
  · rw [e2] at hq
    cases hq

example : ∃ s : St Nat, run St.init [.make 1, .make 0, .assign ⟨1, 1⟩ ⟨0, 0⟩] = .ok s ∧
    locate s 1 1 = .ok (.fld 1) ∧ exec s (.assign ⟨1, 0⟩ ⟨1, 1⟩) = .error .ub :=
  ⟨⟨[some none, some (some 1)], [some ⟨1, none⟩, some ⟨0, some 0⟩], []⟩, by decide +kernel⟩

/-- C94: `list->next = move(list)` leaves the value the owner of itself: no variable leads to it, and it is not
destroyed when all variables are out of scope. -/
theorem C94_assign_into_itself_leaks :
    (run (St.init : St Nat) [.make 1, .assign ⟨0, 1⟩ ⟨0, 0⟩, .leave 0]).map
      (fun s => (s.vars, s.dead, s.blks)) = .ok ([none], [], [some ⟨1, some 0⟩]) := by
  decide +kernel

/-- C94: `box.emplace(*box)` destroys the argument before it constructs from it: undefined, whatever happened
before. -/
theorem C94_emplace_own_value_ub (ops : List (Op α)) (hl : ∀ op ∈ ops, boxLegal op) (s : St α)
    (h : run St.init ops = .ok s) (p : Path) (x : α) (hx : BoxM.read s p = .ok x) :
    exec s (.emplaceOwn p) = .error .ub := by
  obtain ⟨own, vs, _, I⟩ := box_inv hl h
  simp only [BoxM.read, exec, bind, Except.bind] at hx ⊢
  rcases I.link p with ⟨l, a, b, e1, e2, rfl, e4, e5, e6⟩ | ⟨e, e1, e2⟩
  · rw [e5] at hx ⊢
    dsimp only at hx ⊢
    obtain ⟨h', hv, hq⟩ := I.rep.varAt e2
    obtain ⟨m, hq, hr⟩ := pre_append.1 hq
    rw [get_locOf hv hq] at hx ⊢
    dsimp only at hx ⊢
    cases b with
    | nil =>
      have : m = none := hr
      subst this
      cases hx
    | cons y b =>
      obtain ⟨c, y⟩ := y
      obtain ⟨rfl, n, hc, hr⟩ := hr
      dsimp only
      obtain ⟨s1, f1, _, _, f4, _⟩ := dtor_ok I.rep I.tmp e2
      rw [f1]
      dsimp only
      rw [f4 c (by simp)]
  · rw [e2] at hx
    cases hx

example : (run (St.init : St Nat) [.make 1]).bind (fun s => BoxM.read s ⟨0, 0⟩) = .ok 1 := by decide +kernel

end Rpp.Props
