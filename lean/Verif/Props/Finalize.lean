import Verif.Proof.Finalize

/-!
# C134: finalizers and the report at the end

A program does `as`, after which `finalize` is called. Full statement: `finalize` calls every finalizer registered, once and in order,
and then reports each name used, with a warning exactly about those for which allocations and frees do not add up.
-/

namespace Rpp.Props
open Rpp.Fin

variable {N : Type} [DecidableEq N]

/-- The finalizers registered, in order. -/
def registered : List (Act N) → List Nat
  | [] => []
  | .reg f :: as => f :: registered as
  | .use _ _ :: as => registered as

/-- The bytes allocated under a name less those freed. -/
def balance (n : N) : List (Act N) → Int
  | [] => 0
  | .reg _ :: as => balance n as
  | .use m k :: as => (if m = n then k else 0) + balance n as

omit [DecidableEq N] in
private theorem registered_eq (as : List (Act N)) : registered as = regsOf as := by
  induction as with
  | nil => rfl
  | cons a as ih => cases a <;> simp [registered, regsOf, ih] <;> rfl

private theorem balance_eq (n : N) (as : List (Act N)) :
    balance n as = (as.map (delta n)).sum := by
  induction as with
  | nil => rfl
  | cons a as ih => cases a <;> simp [balance, ih, delta]

private theorem run_eq (as : List (Act N)) :
    run as = .ok { fins := registered as, allocs := bumps as [] } := by
  rw [run, acts_free _ _ rfl rfl, registered_eq]
  simp

/-- **C134, partial.** If no finalizer registers another one and no log callback allocates or frees, all is as stated; `everything` is
what the program and the finalizers do. Missing because false: `C134_register`, `C134_callback`. -/
theorem C134_finalize_partial (body : Nat → List (Act N)) (cbs : List (List (Act N))) (as : List (Act N))
    (h1 : ∀ f ∈ registered as, ∀ g, Act.reg g ∉ body f) (h2 : ∀ c ∈ cbs, ∀ n k, Act.use n k ∉ c) :
    let everything := as ++ (registered as).flatMap body
    ∃ s s', run as = .ok s ∧ finalize body cbs s = .ok s' ∧ s'.ran = registered as ∧ s'.lines.Nodup ∧
      (∀ n, Line.stats n ∈ s'.lines ↔ ∃ k, Act.use n k ∈ everything) ∧
      (∀ n z, Line.unbalanced n z ∈ s'.lines ↔ z = balance n everything ∧ z ≠ 0) ∧
      s'.allocs = [] ∧ ((∀ c ∈ cbs, ∀ g, Act.reg g ∉ c) → finalize body cbs s' = .ok s') := by
  intro everything
  have hno : ¬ ∃ f ∈ registered as, ∃ g, Act.reg g ∈ body f := fun ⟨f, hf, g, hg⟩ => h1 f hf g hg
  have hcb : ∀ n k, Act.use n k ∉ cbs.flatten := by
    intro n k hm
    obtain ⟨c, hc, hm⟩ := List.mem_flatten.1 hm
    exact h2 c hc n k hm
  obtain ⟨s1, e1, g1, g2, g3, g4, g5⟩ := (report_alloc cbs
    ⟨[], false, true, bumps everything [], registered as, []⟩ (bumps everything []) rfl rfl).2 hcb
  obtain ⟨b1, b2, b3⟩ := bumps_inv everything [] (by simp)
  have hb : ∀ n, sizeOf' n (bumps everything []) = balance n everything := by
    intro n
    rw [b3 n, balance_eq]
    simp [sizeOf']
  have hf : finalize body cbs { fins := registered as, allocs := bumps as [] } = .ok { s1 with allocs := [], allocLock := false } := by
    unfold finalize
    dsimp only
    rw [if_neg (by decide), call_fin _ _ _ rfl rfl, if_neg hno]
    dsimp only
    rw [if_neg (by decide), ← bumps_append]
    simp only [List.nil_append] at e1 ⊢
    rw [show as ++ (registered as).flatMap body = everything from rfl, e1]
  refine ⟨_, _, run_eq as, hf, g1, ?_, fun n => ?_, fun n z => ?_, rfl, fun h3 => ?_⟩
  · dsimp only
    rw [g2, List.nil_append]
    exact lines_nodup b1
  · dsimp only
    rw [g2, List.nil_append, mem_lines_stats, b2]
    simp
  · dsimp only
    rw [g2, List.nil_append, mem_lines_unbalanced, mem_iff b1, b2, hb]
    constructor
    · rintro ⟨⟨_, rfl⟩, hz⟩
      exact ⟨rfl, hz⟩
    · rintro ⟨rfl, hz⟩
      refine ⟨⟨.inr ?_, rfl⟩, hz⟩
      by_cases hu : ∃ k, Act.use n k ∈ everything
      · exact hu
      · exfalso
        apply hz
        clear_value everything
        clear hz b1 b2 b3 hb e1 hf g1 g2 g3 g4 g5
        induction everything with
        | nil => rfl
        | cons a l ih =>
          have ih := ih fun ⟨k, hk⟩ => hu ⟨k, List.mem_cons_of_mem _ hk⟩
          cases a with
          | reg f => exact ih
          | use m k =>
            have hm : m ≠ n := by
              rintro rfl
              exact hu ⟨k, by simp⟩
            simp [balance, hm, ih]
  · have hr : regsOf cbs.flatten = [] := by
      rw [regsOf, List.filterMap_eq_nil_iff]
      intro a ha
      cases a with
      | use n k => rfl
      | reg f =>
        obtain ⟨c, hc, hm⟩ := List.mem_flatten.1 ha
        exact absurd hm (h3 c hc f)
    have hfin := g5 hr
    obtain ⟨fins, fl, al, allocs, ran, lines⟩ := s1
    dsimp only at g3 g4 hfin
    subst g3 g4 hfin
    rfl

/-- **C134 is false:** a finalizer that registers another one waits forever for the lock that is held while it runs, whatever else
there is. -/
theorem C134_register (body : Nat → List (Act N)) (cbs : List (List (Act N))) (as : List (Act N)) (f : Nat)
    (hf : f ∈ registered as) (g : Nat) (hg : Act.reg g ∈ body f) :
    ∃ s, run as = .ok s ∧ finalize body cbs s = .error .hang := by
  refine ⟨_, run_eq as, ?_⟩
  unfold finalize
  dsimp only
  rw [if_neg (by decide), call_fin _ _ _ rfl rfl, if_pos ⟨f, hf, g, hg⟩]

/-- **C134 is false:** a log callback that allocates or frees waits forever for the lock that is held during the report, if any name
was ever used. -/
theorem C134_callback (body : Nat → List (Act N)) (cbs : List (List (Act N))) (as : List (Act N)) (c : List (Act N)) (hc : c ∈ cbs)
    (n : N) (k : Int) (hk : Act.use n k ∈ c) (m : N) (j : Int) (hm : Act.use m j ∈ as) :
    ∃ s, run as = .ok s ∧ finalize body cbs s = .error .hang := by
  refine ⟨_, run_eq as, ?_⟩
  unfold finalize
  dsimp only
  rw [if_neg (by decide), call_fin _ _ _ rfl rfl]
  split
  · rename_i heq
    split at heq
    · cases heq
      rfl
    · cases heq
  · rename_i heq
    split at heq
    · cases heq
    · cases heq
      dsimp only
      rw [if_neg (by decide), ← bumps_append]
      have hne : bumps (as ++ (registered as).flatMap body) [] ≠ [] := by
        intro e
        have := ((bumps_inv (as ++ (registered as).flatMap body) [] (by simp)).2.1 m).2
          (.inr ⟨j, List.mem_append_left _ hm⟩)
        rw [e] at this
        cases this
      rw [(report_alloc cbs _ _ rfl rfl).1 hne ⟨n, k, List.mem_flatten.2 ⟨c, hc, hk⟩⟩]

/-- Two pools, whose finalizers give their memory back, and a name that is not freed. -/
example :
    let body : Nat → List (Act String) := fun f => if f = 0 then [.use "Pool-8" (-64)] else [.use "Pool-16" (-32)]
    let as : List (Act String) := [.reg 0, .use "Pool-8" 64, .reg 1, .use "Pool-16" 32, .use "Default" 5]
    (do finalize body [[], [.reg 7]] (← run as)).map (fun s : St String => (s.ran, s.lines)) =
      .ok ([0, 1], [.stats "Pool-8", .stats "Pool-16", .stats "Default", .unbalanced "Default" 5]) := by
  decide +kernel

/-- A finalizer that registers another. -/
example : (do finalize (N := String) (fun f => if f = 0 then [.reg 1] else []) [] (← run [.reg 0])).map (fun s : St String => s.ran) =
    .error .hang := by decide +kernel

/-- A callback that allocates, once something was allocated. -/
example : (do finalize (fun _ => []) [[.use "Net" 3]] (← run [.use "Default" 5, .use "Default" (-5)])).map (fun s : St String => s.ran) =
    .error .hang := by decide +kernel

end Rpp.Props
