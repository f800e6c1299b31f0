import Verif.Proof.Variant

/-!
# Properties of `Variant` (`rpp/variant.h`)
-/

namespace Rpp.Props
open Rpp Rpp.Variant VariantSpec

variable {V : Type}

/-- **C52.** For every number of alternatives, the index of an alternative is dispatched to this alternative. -/
theorem C52_dispatch (N k : Nat) (h : k < N) : Variant.dispatch N k = some k := dispatch_of_lt h

/-- **C52**, for programs without a move of a variable to itself. With any list of up to 255 alternatives, any sequence of
constructions, moves, assignments, clones, destructions, `index()` and `match` on any number of variables tells
exactly what the meaning of the program says: `index()` is the alternative held, and `match` calls its
handler with the content held. Nothing undefined happens and no object is lost. Afterwards each variable holds what
it should, and each object with a destructor was destroyed exactly once or is in exactly one variable. Missing from
the full property: `v = move(v)`, for which it is false (`C52_false`). -/
theorem C52_histories_partial (A : List Alt) (hA : A.length ≤ 255) (ps : List (Op V))
    (hp : ∀ i, Op.moveTo i i ∉ ps) :
    ∃ s, Variant.run A St.init ps = .ok (s, (VariantSpec.run A.length (Variant.tm A) (fun _ => none) ps).2) ∧
      Match s.vars (VariantSpec.run A.length (Variant.tm A) (fun _ => none) ps).1 ∧
      Balance (Variant.md A) s := by
  obtain ⟨s, h1, h2⟩ := run_good hA ps St.init (fun _ => none) (fun p h1 h2 => by
    cases p with
    | moveTo i j => have : i = j := h2; subst this; exact hp i h1
    | _ => exact h2) (init_good A)
  exact ⟨s, h1, h2.vars, h2.bal⟩

/-- **C52 is false of the code** for `v = move(v)`: `operator=` destroys the value and invalidates the index first
(`rpp/variant.h:61-72`). With plain data the variable is left invalid, so that `index()` fails its assertion; with two
or with nine alternatives that own something, `match` uses a destroyed object or reads beyond its table. -/
theorem C52_false :
    ((Variant.run (V := Nat) [⟨false, true⟩, ⟨false, true⟩] St.init [.make 0 1 7, .moveTo 0 0, .index 0]).map (·.2) = .error .die ∧
      (VariantSpec.run (V := Nat) 2 (fun _ => true) (fun _ => none) [.make 0 1 7, .moveTo 0 0, .index 0]).2 = [.index 1]) ∧
    (Variant.run (V := Nat) (List.replicate 2 ⟨true, false⟩) St.init [.make 0 1 7, .moveTo 0 0]).map (·.2) = .error .ub ∧
    (Variant.run (V := Nat) (List.replicate 9 ⟨true, false⟩) St.init [.make 0 1 7, .moveTo 0 0]).map (·.2) = .error .ub := by
  decide +kernel

/-- Exactly what `v = move(v)` does to a variable that holds alternative `k`, after any program: if all alternatives are
plain data it becomes invalid, so that `index()` fails; otherwise it is undefined, unless it holds the first
of at most eight alternatives and this one has no destructor: only then it works. -/
theorem C52_self_exact (A : List Alt) (hA : A.length ≤ 255) (ps rest : List (Op V)) (hp : ∀ i, Op.moveTo i i ∉ ps)
    {i k : Nat} {v : Option V}
    (hx : (VariantSpec.run A.length (Variant.tm A) (fun _ => none) ps).1 i = some (k, v)) :
    ((∀ a ∈ A, a.tm = true) → Variant.run A St.init (ps ++ .moveTo i i :: .index i :: rest) = .error .die) ∧
    ((∃ a ∈ A, a.tm = false) → (k = 0 ∧ Variant.md A 0 = false ∧ A.length ≤ 8) →
      ∃ s o, Variant.run A St.init (ps ++ [.moveTo i i]) =
        .ok (s, (VariantSpec.run A.length (Variant.tm A) (fun _ => none) ps).2) ∧ s.vars i = some o ∧ Holds o (0, v)) ∧
    ((∃ a ∈ A, a.tm = false) → ¬ (k = 0 ∧ Variant.md A 0 = false ∧ A.length ≤ 8) →
      Variant.run A St.init (ps ++ .moveTo i i :: rest) = .error .ub) := by
  obtain ⟨s, h1, h2⟩ := run_good hA ps St.init (fun _ => none) (fun p h1 h2 => by
    cases p with
    | moveTo i j => have : i = j := h2; subst this; exact hp i h1
    | _ => exact h2) (init_good A)
  have hi := h2.vars i
  have hk := h2.lt i _ hx
  rw [hx] at hi
  cases ho : s.vars i with
  | none => rw [ho] at hi; exact hi.elim
  | some o =>
    rw [ho] at hi
    obtain ⟨a1, a2, a3⟩ := self_move hA hk ho hi
    have hall : (∃ a ∈ A, a.tm = false) → A.all (·.tm) = false := by
      rintro ⟨a, ha, ht⟩
      rw [List.all_eq_false]
      exact ⟨a, ha, by rw [ht]; decide⟩
    refine ⟨fun ht => ?_, fun ht hz => ?_, fun ht hz => ?_⟩
    · obtain ⟨s', o', e, ho', hidx⟩ := a1 (List.all_eq_true.2 ht)
      rw [run_append, h1]
      simp only [bind, Except.bind, Variant.run, e]
      simp [Variant.step, ho', hidx]
    · obtain ⟨s', o', e, ho', hh⟩ := a2 (hall ht) hz
      refine ⟨s', o', ?_, ho', hh⟩
      rw [run_append, h1]
      simp [bind, Except.bind, Variant.run, e]
    · rw [run_append, h1]
      simp only [bind, Except.bind, Variant.run, a3 (hall ht) hz]

/-- The one case in which it works: the first of two alternatives, without destructor, next to one that owns something. -/
example : (Variant.run (V := Nat) [⟨false, true⟩, ⟨true, false⟩] St.init
    [.make 0 0 7, .moveTo 0 0, .index 0, .visit 0]).map (·.2) = .ok [.index 0, .got 0 (some 7)] ∧
    (Variant.run (V := Nat) [⟨false, true⟩, ⟨true, false⟩] St.init [.make 0 1 7, .moveTo 0 0]).map (·.2) = .error .ub := by
  decide +kernel

/-- Plain data that moved to itself is used as the first alternative, whatever it was. -/
example : Variant.dispatch 3 Variant.invalid = some 0 := by decide

/-- Ten alternatives, some with a destructor, with moves, a clone and destructions of everything. -/
example : (Variant.run (V := Nat) (⟨false, true⟩ :: List.replicate 9 ⟨true, false⟩) St.init
    [.make 0 9 7, .moveNew 1 0, .index 0, .visit 0, .visit 1, .make 2 0 3, .moveTo 1 2, .visit 1, .visit 2,
     .clone 3 0, .make 4 4 5, .clone 5 4, .visitMove 5, .visit 5, .moveTo 0 5, .del 0, .del 1, .del 2, .del 3, .del 4,
     .del 5]).map (fun r => (r.2, r.1.dead, r.1.made)) =
    .ok ([.index 9, .got 9 none, .got 9 (some 7), .got 0 (some 3), .got 0 (some 3), .got 4 (some 5), .got 4 none],
      [1, 4, 7, 0, 9, 5, 6, 8], [9, 9, 0, 0, 9, 9, 4, 4, 4, 4]) := by decide +kernel

end Rpp.Props
