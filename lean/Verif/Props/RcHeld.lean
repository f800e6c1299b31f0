import Verif.Proof.RcHeld

/-!
# C155: handles inside of values

Full statement: a value stays exactly as long as some variable leads to it, and dropping a handle needs a bounded stack.
-/

namespace Rpp.Props
open Rpp.Rc

variable {α : Type}

/-- **C155, partial.** In every history with handles in variables and in values (`Rc.Reachable`): as long as no value leads back to
itself, the values that are there are exactly those a variable leads to. Missing because false: cycles, see `C155_leak`. -/
theorem C155_held_partial {s : St α} (h : Reachable s) (ha : Acyclic s) (b : Nat) : (s.blk b).isSome = true ↔ Held s b :=
  ⟨held_of_acyclic (reachable_good h).1 ha, held_live (reachable_good h).1⟩

/-- A list of three values, the first one in the last variable; the second is kept alive by the first only. -/
example : Reachable (chainSt 2) ∧ Acyclic (chainSt 2) ∧ Held (chainSt 2) 1 ∧ (chainSt 2).vars = [some none, some none, some (some 2)] := by
  refine ⟨chain_reachable 2 (by decide), ?_, ⟨2, 2, .fld (.fld .var (b := 2) (by decide)) (by decide)⟩, by decide⟩
  have lt : ∀ b c, Chain (chainSt 2) b c → c < b := by
    have one : ∀ {b c : Nat}, (chainSt 2).target (.fld b) = some c → c < b := by
      intro b c h
      match b with
      | 0 => revert h; simp [St.target, St.blk, chainSt]
      | 1 => revert h; simp [St.target, St.blk, chainSt, List.range_succ]; omega
      | 2 => revert h; simp [St.target, St.blk, chainSt, List.range_succ]; omega
      | b + 3 => simp [St.target, St.blk, chainSt] at h
    intro b c h
    induction h with
    | one e => exact one e
    | more _ e ih => exact Nat.lt_trans (one e) ih
  intro b hb
  exact absurd (lt b b hb) (by omega)

/-- **C155, partial.** Without cycles everything is gone when the variables hold nothing any more. -/
theorem C155_freed_partial {s : St α} (h : Reachable s) (ha : Acyclic s) (hv : ∀ v, s.target (.var v) = none) (b : Nat) :
    s.blk b = none ∧ (b < s.blks.length → b ∈ s.dead) := by
  have hn : s.blk b = none := by
    cases e : s.blk b with
    | none => rfl
    | some k =>
      obtain ⟨v, n, hl⟩ := (C155_held_partial h ha b).1 (by rw [e]; rfl)
      have : ∀ {n l}, Leads s v n l → n ≠ 0 → False := by
        intro n l hl
        induction hl with
        | var => intro h; exact h rfl
        | @fld n l b hl ht ih =>
          intro _
          cases hl with
          | var => rw [hv v] at ht; cases ht
          | fld hl' _ => exact ih (by omega)
      exact absurd hl (fun hl => by cases hl with | fld a b => exact this (.fld a b) (by omega))
  exact ⟨hn, fun hb => ((reachable_good h).1.dead b).2 ⟨hb, hn⟩⟩

/-- **C155 is false** of values that form a cycle: once no variable leads to it, a value that is still there is never destroyed
nor changed, whatever the program does. -/
theorem C155_leak {s s' : St α} {b : Nat} (hb : (s.blk b).isSome = true) (hu : ¬ Held s b) (ops : List (Op α))
    (e : execAll s ops = .ok s') : s'.blk b = s.blk b ∧ ¬ Held s' b := by
  obtain ⟨h1, h2⟩ := Trap.execAll ops (trap_of_unheld s) e
  refine ⟨h2 b ⟨hb, hu⟩, ?_⟩
  rintro ⟨v, n, hl⟩
  have : ∀ {n l}, Leads s' v n l → ∀ y, l = .fld y → ¬ ((s.blk y).isSome = true ∧ ¬ Held s y) := by
    intro n l hl
    induction hl with
    | var => intro y h; cases h
    | fld _ ht ih =>
      intro y hy hu
      cases hy
      obtain ⟨z, hz, huz⟩ := h1.closed _ _ ht hu
      exact ih z hz huz
  exact this hl b rfl ⟨hb, hu⟩

/-- Such states exist: `Rc<T> x{7}; x->next = move(x);` and a cycle of two values. -/
theorem C155_false :
    (∃ s : St Nat, Reachable s ∧ (s.blk 0).isSome = true ∧ ¬ Held s 0 ∧ execAll St.init [.make 7, .assign ⟨0, 1⟩ ⟨0, 0⟩] = .ok s) ∧
    (execAll St.init [.make 1, .make 2, .dup ⟨0, 0⟩, .assign ⟨0, 1⟩ ⟨1, 0⟩, .assign ⟨0, 2⟩ ⟨2, 0⟩, .leave 0, .leave 1, .leave 2]).map
      (fun s : St Nat => (s.vars, s.blks, s.dead)) = .ok ([none, none, none], [some ⟨1, 1, some 1⟩, some ⟨1, 2, some 0⟩], []) := by
  refine ⟨⟨⟨[some none], [some ⟨1, 7, some 0⟩], []⟩, ?_, rfl, ?_, by rfl⟩, by decide +kernel⟩
  · exact .step (op := .assign ⟨0, 1⟩ ⟨0, 0⟩) (.step (op := .make 7) .init (by simp [Legal, St.init]) rfl)
      ⟨⟨_, rfl⟩, ⟨_, rfl⟩, fun lp d _ hd => by cases hd⟩ rfl
  · rintro ⟨v, n, hl⟩
    have : ∀ {n l}, Leads (⟨[some none], [some ⟨1, 7, some 0⟩], []⟩ : St Nat) v n l → n = 0 ∧ l = .var v := by
      intro n l hl
      induction hl with
      | var => exact ⟨rfl, rfl⟩
      | fld _ ht ih =>
        obtain ⟨_, rfl⟩ := ih
        match v with
        | 0 => cases ht
        | v + 1 => cases ht
    have := (this hl).2
    cases this

/-- Each value that dropping a handle destroys takes a call inside of the one before: with a stack for `f` calls at most `f` values
can be destroyed at once. -/
theorem C155_depth (f : Nat) {s s' : St α} {b : Nat} (e : release f s b = .ok s') :
    ∃ L, s'.dead = s.dead ++ L ∧ L.length ≤ f := release_count f e

example : (release 3 (chainSt 2) 2).map (fun s : St Nat => s.dead) = .ok [0, 1, 2] ∧
    (release 2 (chainSt 2) 2).map (fun s : St Nat => s.dead) = .error .hang := by decide +kernel

/-- **C155 is false** of long lists: for every size of the stack there is a list, made by a legal history, that overflows it when
the only handle to it is dropped. With memory for more calls the drop would succeed. -/
theorem C155_deep (n : Nat) (hn : n < 2 ^ 61) : ∃ (s : St Nat) (b : Nat), Reachable s ∧ s.target (.var n) = some b ∧
    (∀ f ≤ n, release f s b = .error .hang) ∧ ∃ s', drop s (.var n) = .ok s' := by
  have hr := chain_reachable n hn
  have hv : (chainSt n).vars[n]? = some (some (some n)) := by
    simp only [chainSt]
    rw [List.getElem?_append_right (by simp)]
    simp
  refine ⟨chainSt n, n, hr, by simp only [St.target, hv]; rfl,
    fun f hf => release_hang f hf fun i hi => chain_blk hi, ?_⟩
  rcases exec_spec (reachable_good hr).1 (reachable_good hr).2 (.clear ⟨n, 0⟩) ⟨_, hv⟩ with ⟨_, h⟩ | ⟨_, s', h, _⟩
  · obtain ⟨m, l, hm, _⟩ := h
    exact absurd hm (Nat.not_lt_zero m)
  · obtain ⟨l, h1, h2⟩ := bind_inv h
    simp only [locate, hv] at h1
    cases h1
    exact ⟨s', h2⟩

end Rpp.Props
