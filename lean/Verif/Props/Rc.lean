import Verif.Proof.RcExec

/-!
# Properties of `Rc` (`rpp/rc.h`)
-/

namespace Rpp.Props
open Rpp Rpp.Rc

variable {α : Type}

/-- **C49**, for histories in which no handle is assigned from a handle inside of the value that the
assignment destroys (`Legal`). In every such history, with handles in variables and in values (so that
there can be lists, sharing and cycles): the count of each live value is the number of handles to it,
which is not zero; no handle points to a destroyed value; no value is destroyed twice. Missing from the
full property: assignments such as `head = move(head->next)`, for which it is false (`C49_false`). -/
theorem C49_counts_partial {s : St α} (h : Reachable s) : Good s := (reachable_good h).1

/-- **C49.** In these histories a value has been destroyed if and only if there is no handle to it any
more. -/
theorem C49_last_handle_partial {s : St α} (h : Reachable s) {b : Nat} (hb : b < s.blks.length) :
    b ∈ s.dead ↔ s.handles b = 0 := by
  have hg := (reachable_good h).1
  rw [hg.dead b]
  constructor
  · rintro ⟨_, h2⟩
    rcases Nat.eq_zero_or_pos (s.handles b) with h0 | h0
    · exact h0
    · obtain ⟨l, _, h4⟩ := exists_of_cnt_pos h0
      have := hg.live l b h4
      rw [h2] at this; cases this
  · intro h0
    refine ⟨hb, ?_⟩
    cases e : s.blk b with
    | none => rfl
    | some k => have := hg.used b k e; omega

/-- **C49.** No operation of such a history is undefined, loses a value or hangs: an assertion fails exactly if the
operation follows a null handle, and otherwise it succeeds, the handles point to what they should, and the values
still there are unchanged. -/
theorem C49_operations_partial {s : St α} (h : Reachable s) {op : Op α} (hl : Legal s op) :
    (Stops s op → exec s op = .error .die) ∧
    (¬ Stops s op → ∃ s', exec s op = .ok s' ∧ Good s' ∧ ∃ G, after s op G ∧ Effect s s' G) := by
  have hg := reachable_good h
  rcases exec_spec hg.1 hg.2 op hl with ⟨h1, h2⟩ | ⟨hn, s', h1, h2, _, h3⟩
  · exact ⟨fun _ => h1, fun c => absurd h2 c⟩
  · exact ⟨fun c => absurd c hn, fun _ => ⟨s', h1, h2, h3⟩⟩

/-- **C49.** Reading through handles never touches a destroyed value, and gives the value of the block
the handle points to; an assertion fails exactly if one of the handles is null. -/
theorem C49_read_partial {s : St α} (h : Reachable s) {p : Path} (hp : s.Has p.var) :
    (NullOn s p.var (p.steps + 1) → Rc.read s p = .error .die) ∧
    (¬ NullOn s p.var (p.steps + 1) →
      ∃ l b k, Leads s p.var p.steps l ∧ s.target l = some b ∧ s.blk b = some k ∧ b ∉ s.dead ∧
        Rc.read s p = .ok k.val ∧ references s p = .ok (s.handles b)) := by
  have hg := (reachable_good h).1
  unfold Rc.read references
  rcases locate_spec hg hp p.steps with ⟨h, m, l, hm, hn⟩ | ⟨l, h, hL⟩
  · exact ⟨fun _ => by rw [h]; rfl, fun c => absurd ⟨m, l, by omega, hn⟩ c⟩
  · obtain ⟨⟨h1, e1⟩, _⟩ := locate_reach (l := l) _ h
    have ht := get_target e1
    rw [h, rc_ok_bind, e1, rc_ok_bind]
    cases h1 with
    | none => exact ⟨fun _ => rfl, fun c => absurd ⟨_, l, Nat.lt_succ_self _, hL, ht⟩ c⟩
    | some b =>
      refine ⟨fun c => absurd c (Leads.fld hL ht).notNull, fun _ => ?_⟩
      obtain ⟨k, hk⟩ := Option.isSome_iff_exists.mp (hg.live _ _ ht)
      refine ⟨l, b, k, hL, ht, hk, ?_, by simp only [hk], ?_⟩
      · intro hd; have := ((hg.dead b).mp hd).2; rw [hk] at this; cases this
      · rw [rc_ok_bind, e1, rc_ok_bind]; simp only [hk]; rw [hg.count b k hk]

/-- Run operations. -/
def rcRun : St Nat → List (Op Nat) → Res (St Nat)
  | s, [] => .ok s
  | s, op :: r => do rcRun (← exec s op) r

/-- A list of two nodes `0 → 1`, where node 1 is shared with a variable; then the first node is dropped:
only it is destroyed. -/
def rcSample : List (Op Nat) :=
  [.make 10, .make 11, .dup ⟨1, 0⟩, .assign ⟨0, 1⟩ ⟨2, 0⟩, .leave 0]

example : (rcRun St.init rcSample).map (fun s => (s.dead, (s.blk 1).map Blk.refs)) = .ok ([0], some 1) := by
  decide +kernel

/-- Dropping the head of an unshared list destroys the whole list, the last node first. -/
example : (rcRun St.init [.make 10, .make 11, .assign ⟨0, 1⟩ ⟨1, 0⟩, .clear ⟨0, 0⟩]).map (·.dead) =
    .ok [1, 0] := by decide +kernel

/-- A legal assignment from a field: `a->next = move(b->next)`. -/
example : ∃ s : St Nat, Reachable s ∧ Legal s (.assign ⟨0, 1⟩ ⟨1, 1⟩) ∧ s.target (.fld 1) = some 2 := by
  refine ⟨⟨[some (some 0), some (some 1), some none], [some ⟨1, 10, none⟩, some ⟨1, 11, some 2⟩,
    some ⟨1, 12, none⟩], []⟩, ?_, ?_, rfl⟩
  · refine .step (op := .assign ⟨1, 1⟩ ⟨2, 0⟩) (.step (op := .make 12) (.step (op := .make 11)
      (.step (op := .make 10) .init ?_ rfl) ?_ rfl) ?_ rfl) ⟨⟨_, rfl⟩, ⟨_, rfl⟩, ?_⟩ rfl
    · show 0 + 0 < 2 ^ 63; omega
    · show 1 + 1 < 2 ^ 63; omega
    · show 2 + 2 < 2 ^ 63; omega
    · intro lp d _ h; cases h
  · refine ⟨⟨_, rfl⟩, ⟨_, rfl⟩, ?_⟩
    intro lp d h1 h2
    obtain rfl := h1.det (.fld (b := 0) .var rfl)
    have := h2.det (.fld (b := 1) .var rfl)
    injection this with this
    subst this
    exact .var (v := 1) (by simp) rfl

/-- **C49 is false of the code** for `head = move(head->next)` when `head` is the only handle to its
value: the assignment first drops the old value, and with it the handle it is about to move from. -/
theorem C49_false :
    rcRun St.init [.make 10, .make 11, .assign ⟨0, 1⟩ ⟨1, 0⟩, .assign ⟨0, 0⟩ ⟨0, 1⟩] = .error .ub := by
  decide +kernel

/-- In general: whatever the state, if the value that `q` is part of is destroyed by dropping `p`, then
`p = move(q)` accesses freed memory. -/
theorem C49_false_general {s s' : St α} {p q : Path} {lp : Loc} {d : Nat}
    (hp : locate s p.var p.steps = .ok lp) (hq : locate s q.var q.steps = .ok (.fld d))
    (hd : drop s lp = .ok s') (hgone : s'.blk d = none) : exec s (.assign p q) = .error .ub := by
  unfold exec
  dsimp only
  rw [hp, rc_ok_bind, hq, rc_ok_bind, hd, rc_ok_bind]
  simp [St.get, hgone]
  rfl

end Rpp.Props
