import Verif.Proof.Opt

/-!
# Properties of `Opt` (`rpp/opt.h`)
-/

namespace Rpp.Props
open Rpp Rpp.Opt OptSpec

variable {V : Type}

/-- **C51**, for programs without `o = move(*o)` on an owning payload. Any sequence of constructions,
assignments, moves (also of a variable to itself), copies, clones, `clear`, `emplace`, reads and destructions on
any number of `Opt` variables tells exactly what the meaning of the program says, or stops at the assertion when
the program asks for a payload that does not exist. It never reads or destroys storage without a payload and
never loses one. Afterwards `ok_` tells for each variable whether it has a payload; and each owning payload ever
made was destroyed exactly once, or is in exactly one variable. Missing from the full property: `o = move(*o)`, for
which it is false (`C51_false`). -/
theorem C51_histories_partial (T : Traits) (ps : List (Op V)) (hp : ∀ i, T.triv = false → Op.setFrom i i ∉ ps) :
    match OptSpec.run T.triv (fun _ => none) ps with
    | some (e, os) => ∃ s, Opt.run T St.init ps = .ok (s, os) ∧ Match T.triv s.vars e ∧ (T.triv = false → Balance s)
    | none => Opt.run T St.init ps = .error .die := by
  refine run_good ps St.init _ (fun p h1 h2 => ?_) (init_good T)
  cases p with
  | setFrom i j => obtain ⟨rfl, ht⟩ := h2; exact hp i ht h1
  | _ => exact h2

/-- **C51.** When the program has destroyed all of its variables, every owning payload was destroyed exactly once. -/
theorem C51_all_destroyed_partial (T : Traits) (ht : T.triv = false) (ps : List (Op V)) (hp : ∀ i, Op.setFrom i i ∉ ps)
    {e : Env V} {os : List (Out V)} (h : OptSpec.run T.triv (fun _ => none) ps = some (e, os)) (he : ∀ i, e i = none) :
    ∃ s, Opt.run T St.init ps = .ok (s, os) ∧ s.dead.Perm (List.range s.next) := by
  have h1 := C51_histories_partial T ps (fun i _ => hp i)
  rw [h] at h1
  obtain ⟨s, h1, h2, h3⟩ := h1
  refine ⟨s, h1, ?_⟩
  have B := h3 ht
  refine (List.perm_ext_iff_of_nodup B.once List.nodup_range).mpr fun id => ?_
  rw [List.mem_range]
  refine ⟨B.made id, fun hid => ?_⟩
  rcases B.all id hid with h4 | ⟨i, o, c, h4, _⟩
  · exact h4
  · have := h2 i
    rw [h4, he i] at this
    exact this.elim

/-- **C51 is false of the code** for assignment from the variable's own payload, `o = move(*o)`: `operator=(T&&)`
clears the variable first (`rpp/opt.h:63-70`), so that a destroyed payload is read. -/
theorem C51_false : (Opt.run (V := Nat) ⟨false⟩ St.init [.make 0 7, .setFrom 0 0]).map (·.2) = .error .ub ∧
    (OptSpec.run (V := Nat) false (fun _ => none) [.make 0 7, .setFrom 0 0, .get 0]).map (·.2) = some [.val (some 7)] := by
  decide +kernel

/-- In general: whatever a program has done before, if `i` holds an owning payload then `o = move(*o)` on it is undefined. -/
theorem C51_self_undefined (T : Traits) (ht : T.triv = false) (ps rest : List (Op V)) (hp : ∀ i, Op.setFrom i i ∉ ps)
    {e : Env V} {os : List (Out V)} (h : OptSpec.run T.triv (fun _ => none) ps = some (e, os)) {i : Nat} {x : Option V}
    (hx : e i = some (some x)) : Opt.run T St.init (ps ++ .setFrom i i :: rest) = .error .ub := by
  have h1 := C51_histories_partial T ps (fun i _ => hp i)
  rw [h] at h1
  obtain ⟨s, h1, h2, _⟩ := h1
  have hi := h2 i
  rw [hx] at hi
  cases ho : s.vars i with
  | none => rw [ho] at hi; exact hi.elim
  | some o =>
    rw [ho] at hi
    obtain ⟨hok, c, hc, _⟩ := hi
    rw [run_append, h1]
    have hs : Opt.step T s (.setFrom i i) = .error .ub := by
      simp [Opt.step, ho, hok, Opt.clear, hc, ht, Opt.take, St.set, bind, Except.bind]
    simp only [bind, Except.bind, Opt.run, hs]

example : (OptSpec.run (V := Nat) false (fun _ => none) [.make 0 7, .moveNew 1 0, .set 0 3]).map (fun r => r.1 0) =
    some (some (some (some 3))) := by decide +kernel

/-- A program with a move, a move to itself, a move of a payload, a clone and destructions of everything. -/
example : (Opt.run (V := Nat) ⟨false⟩ St.init
    [.make 0 7, .moveNew 1 0, .ok 0, .get 0, .get 1, .moveTo 1 1, .ok 1, .valueOr 1 5, .set 1 8, .setFrom 0 1, .get 0,
     .clone 2 0, .get 2, .emplace 2 9, .new 3, .moveTo 2 3, .ok 2, .clear 0, .del 0, .del 1, .del 2, .del 3]).map
      (fun r => (r.2, r.1.dead, r.1.next)) =
    .ok ([.flag true, .val none, .val (some 7), .flag false, .val (some 5), .val (some 8), .val (some 8), .flag false],
      [1, 0, 4, 5, 6, 3, 2], 7) := by decide +kernel

/-- Its meaning: nothing is left. -/
example : (OptSpec.run (V := Nat) false (fun _ => none)
    [.make 0 7, .moveNew 1 0, .ok 0, .get 0, .get 1, .moveTo 1 1, .ok 1, .valueOr 1 5, .set 1 8, .setFrom 0 1, .get 0,
     .clone 2 0, .get 2, .emplace 2 9, .new 3, .moveTo 2 3, .ok 2, .clear 0, .del 0, .del 1, .del 2, .del 3]).map
      (fun r => (r.2, [r.1 0, r.1 1, r.1 2, r.1 3].all (·.isNone))) =
    some ([.flag true, .val none, .val (some 7), .flag false, .val (some 5), .val (some 8), .val (some 8), .flag false],
      true) := by decide +kernel

/-- Reading an empty variable stops the program. -/
example : (Opt.run (V := Nat) ⟨false⟩ St.init [.make 0 7, .clear 0, .get 0]).map (·.2) = .error .die := by decide +kernel

end Rpp.Props
