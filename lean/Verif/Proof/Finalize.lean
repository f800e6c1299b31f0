import Verif.Model.Finalize

/-! Finalizers and the report: lemmas. -/

namespace Rpp.Fin

variable {N : Type} [DecidableEq N]

/-- The sizes after the actions. -/
def bumps : List (Act N) → List (N × Int) → List (N × Int)
  | [], l => l
  | .reg _ :: as, l => bumps as l
  | .use n k :: as, l => bumps as (bump n k l)

def regsOf (as : List (Act N)) : List Nat := as.filterMap fun | .reg f => some f | .use .. => none

omit [DecidableEq N] in
theorem regsOf_append (a b : List (Act N)) : regsOf (a ++ b) = regsOf a ++ regsOf b := List.filterMap_append

theorem bumps_append (a b : List (Act N)) (l : List (N × Int)) : bumps (a ++ b) l = bumps b (bumps a l) := by
  induction a generalizing l with
  | nil => rfl
  | cons x a ih => cases x <;> exact ih _

/-- Actions with both locks free. -/
theorem acts_free (s : St N) (as : List (Act N)) (h1 : s.finLock = false) (h2 : s.allocLock = false) :
    acts s as = .ok { s with fins := s.fins ++ regsOf as, allocs := bumps as s.allocs } := by
  induction as generalizing s with
  | nil => simp [acts, regsOf, bumps]
  | cons a as ih =>
    cases a with
    | reg f =>
      obtain ⟨fins, fl, al, allocs, ran, lines⟩ := s
      cases h1
      cases h2
      simp only [acts, act, Bool.false_eq_true, if_false]
      rw [ih _ rfl rfl]
      simp [regsOf, bumps]
    | use n k =>
      obtain ⟨fins, fl, al, allocs, ran, lines⟩ := s
      cases h1
      cases h2
      simp only [acts, act, Bool.false_eq_true, if_false]
      rw [ih _ rfl rfl]
      simp [regsOf, bumps]

open scoped Classical in
/-- With the lock of the finalizers held: exactly those that register hang. -/
theorem acts_fin (s : St N) (as : List (Act N)) (h1 : s.finLock = true) (h2 : s.allocLock = false) :
    acts s as = if ∃ g, Act.reg g ∈ as then .error .hang else .ok { s with allocs := bumps as s.allocs } := by
  induction as generalizing s with
  | nil => simp [acts, bumps]
  | cons a as ih =>
    cases a with
    | reg f =>
      rw [if_pos ⟨f, by simp⟩]
      simp only [acts, act, h1, if_true]
    | use n k =>
      obtain ⟨fins, fl, al, allocs, ran, lines⟩ := s
      cases h1
      cases h2
      simp only [acts, act, Bool.false_eq_true, if_false]
      rw [ih _ rfl rfl]
      simp [bumps]

open scoped Classical in
/-- With the lock of the allocators held: exactly those that allocate or free hang. -/
theorem acts_alloc (s : St N) (as : List (Act N)) (h1 : s.finLock = false) (h2 : s.allocLock = true) :
    acts s as = if ∃ n k, Act.use n k ∈ as then .error .hang else .ok { s with fins := s.fins ++ regsOf as } := by
  induction as generalizing s with
  | nil => simp [acts, regsOf]
  | cons a as ih =>
    cases a with
    | reg f =>
      obtain ⟨fins, fl, al, allocs, ran, lines⟩ := s
      cases h1
      cases h2
      simp only [acts, act, Bool.false_eq_true, if_false]
      rw [ih _ rfl rfl]
      simp [regsOf]
    | use n k =>
      rw [if_pos ⟨n, k, by simp⟩]
      simp only [acts, act, h2, if_true]

open scoped Classical in
theorem call_fin (body : Nat → List (Act N)) (s : St N) (fs : List Nat) (h1 : s.finLock = true) (h2 : s.allocLock = false) :
    call body s fs = if ∃ f ∈ fs, ∃ g, Act.reg g ∈ body f then .error .hang
      else .ok { s with ran := s.ran ++ fs, allocs := bumps (fs.flatMap body) s.allocs } := by
  induction fs generalizing s with
  | nil => simp [call, bumps]
  | cons f fs ih =>
    obtain ⟨fins, fl, al, allocs, ran, lines⟩ := s
    cases h1
    cases h2
    rw [call, acts_fin _ _ rfl rfl]
    by_cases h : ∃ g, Act.reg g ∈ body f
    · rw [if_pos h, if_pos ⟨f, by simp, h⟩]
    · rw [if_neg h]
      dsimp only
      rw [ih _ rfl rfl]
      simp only [List.mem_cons, exists_eq_or_imp, h, false_or]
      split
      · rfl
      · simp [bumps_append]

/-- The lines about a list of names. -/
def linesOf : List (N × Int) → List (Line N)
  | [] => []
  | (n, z) :: r => .stats n :: (if z ≠ 0 then [.unbalanced n z] else []) ++ linesOf r

open scoped Classical in
theorem report_alloc (cbs : List (List (Act N))) (s : St N) (l : List (N × Int)) (h1 : s.finLock = false) (h2 : s.allocLock = true) :
    (l ≠ [] → (∃ n k, Act.use n k ∈ cbs.flatten) → report cbs s l = .error .hang) ∧
    ((∀ n k, Act.use n k ∉ cbs.flatten) → ∃ s', report cbs s l = .ok s' ∧ s'.ran = s.ran ∧ s'.lines = s.lines ++ linesOf l ∧
      s'.finLock = false ∧ s'.allocLock = true ∧ (regsOf cbs.flatten = [] → s'.fins = s.fins)) := by
  constructor
  · intro hl hu
    obtain ⟨fins, fl, al, allocs, ran, lines⟩ := s
    cases h1
    cases h2
    cases l with
    | nil => exact absurd rfl hl
    | cons p r =>
      obtain ⟨n, z⟩ := p
      simp only [report, say]
      rw [acts_alloc _ _ rfl rfl, if_pos hu]
  · intro hu
    have hu' : ¬ ∃ n k, Act.use n k ∈ cbs.flatten := fun ⟨n, k, h⟩ => hu n k h
    induction l generalizing s with
    | nil => exact ⟨s, rfl, rfl, by simp [linesOf], h1, h2, fun _ => rfl⟩
    | cons p r ih =>
      obtain ⟨n, z⟩ := p
      obtain ⟨fins, fl, al, allocs, ran, lines⟩ := s
      cases h1
      cases h2
      simp only [report, say]
      rw [acts_alloc _ _ rfl rfl, if_neg hu']
      dsimp only
      by_cases hz : z ≠ 0
      · rw [if_pos hz, acts_alloc _ _ rfl rfl, if_neg hu']
        dsimp only
        obtain ⟨s', e, g1, g2, g3, g4, g5⟩ := ih ⟨fins ++ regsOf cbs.flatten ++ regsOf cbs.flatten, false, true, allocs, ran,
          lines ++ [.stats n] ++ [.unbalanced n z]⟩ rfl rfl
        refine ⟨s', e, g1, ?_, g3, g4, fun h => ?_⟩
        · rw [g2, linesOf, if_pos hz]
          simp
        · rw [g5 h]
          simp [h]
      · rw [if_neg hz]
        dsimp only
        obtain ⟨s', e, g1, g2, g3, g4, g5⟩ := ih ⟨fins ++ regsOf cbs.flatten, false, true, allocs, ran, lines ++ [.stats n]⟩ rfl rfl
        refine ⟨s', e, g1, ?_, g3, g4, fun h => ?_⟩
        · rw [g2, linesOf, if_neg hz]
          simp
        · rw [g5 h]
          simp [h]

/-! The sizes. -/

theorem bump_keys (n : N) (k : Int) (l : List (N × Int)) :
    (bump n k l).map (·.1) = if n ∈ l.map (·.1) then l.map (·.1) else l.map (·.1) ++ [n] := by
  induction l with
  | nil => simp [bump]
  | cons p r ih =>
    obtain ⟨m, z⟩ := p
    rw [bump]
    by_cases h : m = n
    · subst h
      simp
    · rw [if_neg h]
      simp only [List.map_cons, ih, List.mem_cons]
      have h' : ¬ n = m := fun e => h e.symm
      simp only [h', false_or]
      split <;> simp

theorem bump_nodup {n : N} {k : Int} {l : List (N × Int)} (h : (l.map (·.1)).Nodup) : ((bump n k l).map (·.1)).Nodup := by
  rw [bump_keys]
  split
  · exact h
  · rename_i hn
    rw [List.nodup_append]
    refine ⟨h, by simp, ?_⟩
    rintro a ha b hb rfl
    simp only [List.mem_singleton] at hb
    subst hb
    exact hn ha

/-- The size of a name. -/
def sizeOf' (n : N) : List (N × Int) → Int
  | [] => 0
  | (m, z) :: r => if m = n then z else sizeOf' n r

theorem sizeOf_bump (n m : N) (k : Int) (l : List (N × Int)) :
    sizeOf' n (bump m k l) = sizeOf' n l + if m = n then k else 0 := by
  induction l with
  | nil => simp [bump, sizeOf']
  | cons p r ih =>
    obtain ⟨q, z⟩ := p
    rw [bump]
    by_cases h : q = m
    · subst h
      rw [if_pos rfl]
      simp only [sizeOf']
      split <;> simp
    · rw [if_neg h]
      simp only [sizeOf', ih]
      by_cases h2 : q = n
      · have : ¬ m = n := fun e => h (h2.trans e.symm)
        simp [h2, this]
      · simp [h2]

theorem mem_iff {l : List (N × Int)} (h : (l.map (·.1)).Nodup) (n : N) (z : Int) :
    (n, z) ∈ l ↔ n ∈ l.map (·.1) ∧ sizeOf' n l = z := by
  induction l with
  | nil => simp
  | cons p r ih =>
    obtain ⟨m, y⟩ := p
    simp only [List.map_cons, List.nodup_cons] at h
    simp only [List.mem_cons, ih h.2, List.map_cons, sizeOf', Prod.mk.injEq]
    by_cases e : m = n
    · subst e
      simp only [true_and, true_or, if_true]
      constructor
      · rintro (rfl | ⟨h1, _⟩)
        · rfl
        · exact absurd h1 h.1
      · intro h1
        exact .inl h1.symm
    · have e' : ¬ n = m := fun x => e x.symm
      simp [e, e']

/-- What an action adds to the size of a name. -/
def delta (n : N) : Act N → Int
  | .reg _ => 0
  | .use m k => if m = n then k else 0

theorem bumps_inv (as : List (Act N)) : ∀ l : List (N × Int), (l.map (·.1)).Nodup →
    ((bumps as l).map (·.1)).Nodup ∧
    (∀ n, n ∈ (bumps as l).map (·.1) ↔ n ∈ l.map (·.1) ∨ ∃ k, Act.use n k ∈ as) ∧
    ∀ n, sizeOf' n (bumps as l) = sizeOf' n l + (as.map (delta n)).sum := by
  induction as with
  | nil => intro l h; simp [bumps, h]
  | cons a as ih =>
    intro l h
    cases a with
    | reg f =>
      obtain ⟨g1, g2, g3⟩ := ih l h
      refine ⟨g1, fun n => ?_, fun n => ?_⟩
      · rw [bumps, g2 n]
        simp
      · rw [bumps, g3 n]
        simp [delta]
    | use m k =>
      obtain ⟨g1, g2, g3⟩ := ih (bump m k l) (bump_nodup h)
      refine ⟨g1, fun n => ?_, fun n => ?_⟩
      · rw [bumps, g2 n, bump_keys]
        by_cases hm : m ∈ l.map (·.1)
        · rw [if_pos hm]
          constructor
          · rintro (h1 | ⟨k', h1⟩)
            · exact .inl h1
            · exact .inr ⟨k', List.mem_cons_of_mem _ h1⟩
          · rintro (h1 | ⟨k', h1⟩)
            · exact .inl h1
            · rcases List.mem_cons.1 h1 with e | h1
              · cases e
                exact .inl hm
              · exact .inr ⟨k', h1⟩
        · rw [if_neg hm]
          constructor
          · rintro (h1 | ⟨k', h1⟩)
            · rcases List.mem_append.1 h1 with h1 | h1
              · exact .inl h1
              · simp only [List.mem_singleton] at h1
                subst h1
                exact .inr ⟨k, by simp⟩
            · exact .inr ⟨k', List.mem_cons_of_mem _ h1⟩
          · rintro (h1 | ⟨k', h1⟩)
            · exact .inl (List.mem_append_left _ h1)
            · rcases List.mem_cons.1 h1 with e | h1
              · cases e
                exact .inl (List.mem_append_right _ (by simp))
              · exact .inr ⟨k', h1⟩
      · rw [bumps, g3 n, sizeOf_bump]
        simp only [List.map_cons, List.sum_cons, delta]
        omega

omit [DecidableEq N] in
theorem mem_lines_stats (l : List (N × Int)) (n : N) : Line.stats n ∈ linesOf l ↔ n ∈ l.map (·.1) := by
  induction l with
  | nil => simp [linesOf]
  | cons p r ih =>
    obtain ⟨m, z⟩ := p
    simp only [linesOf, List.cons_append, List.mem_cons, Line.stats.injEq, List.mem_append, ih, List.map_cons]
    split <;> simp

omit [DecidableEq N] in
theorem mem_lines_unbalanced (l : List (N × Int)) (n : N) (z : Int) : Line.unbalanced n z ∈ linesOf l ↔ (n, z) ∈ l ∧ z ≠ 0 := by
  induction l with
  | nil => simp [linesOf]
  | cons p r ih =>
    obtain ⟨m, y⟩ := p
    simp only [linesOf, List.cons_append, List.mem_cons, List.mem_append, ih, Prod.mk.injEq]
    by_cases hy : y ≠ 0
    · simp only [if_pos hy, List.mem_singleton, Line.unbalanced.injEq]
      constructor
      · rintro (h | ⟨rfl, rfl⟩ | ⟨h1, h2⟩)
        · cases h
        · exact ⟨.inl ⟨rfl, rfl⟩, hy⟩
        · exact ⟨.inr h1, h2⟩
      · rintro ⟨⟨rfl, rfl⟩ | h1, h2⟩
        · exact .inr (.inl ⟨rfl, rfl⟩)
        · exact .inr (.inr ⟨h1, h2⟩)
    · simp only [if_neg hy, List.not_mem_nil, false_or]
      have hy' : y = 0 := by omega
      constructor
      · rintro (h | ⟨h1, h2⟩)
        · cases h
        · exact ⟨.inr h1, h2⟩
      · rintro ⟨⟨rfl, rfl⟩ | h1, h2⟩
        · exact absurd hy' h2
        · exact .inr ⟨h1, h2⟩

omit [DecidableEq N] in
theorem lines_nodup {l : List (N × Int)} (h : (l.map (·.1)).Nodup) : (linesOf l).Nodup := by
  induction l with
  | nil => simp [linesOf]
  | cons p r ih =>
    obtain ⟨m, z⟩ := p
    simp only [List.map_cons, List.nodup_cons] at h
    have h1 : Line.stats m ∉ linesOf r := fun c => h.1 ((mem_lines_stats r m).1 c)
    have h2 : Line.unbalanced m z ∉ linesOf r := fun c =>
      h.1 (List.mem_map.2 ⟨(m, z), ((mem_lines_unbalanced r m z).1 c).1, rfl⟩)
    rw [linesOf]
    split
    · simp [h1, h2, ih h.2]
    · simp [h1, ih h.2]

end Rpp.Fin
