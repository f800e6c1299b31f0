import Verif.Proof.Atomic

/-!
# C145: `Thread::Atomic`

Full statement: increments and decrements by any number of threads are all counted, each returns the count after it, and of several
attempts to replace the same value exactly one succeeds.
-/

namespace Rpp.Props
open Rpp.Atomic Rpp.Spec.Atomic

/-- Any interleaving of increments and decrements, on either platform, as long as the count fits into 64 bits: the value at the
end counts them all, and the result of each call is the count after it. -/
theorem C145_counts_partial (win : Bool) : ∀ (es : List (Nat × Op)) (v : Int) (rs : List (Nat × Int)),
    (∀ e ∈ es, e.2 = .incr ∨ e.2 = .decr) → (∀ k, InRange (v + net (es.take k))) →
    runAll (step win) ⟨v, rs⟩ es =
      .ok ⟨v + net es, rs ++ (List.range es.length).map fun i => ((es[i]?.map Prod.fst).getD 0, v + net (es.take (i + 1)))⟩
  | [], v, rs, _, _ => by simp [runAll, net]
  | e :: es, v, rs, ho, hr => by
    have hnet : ∀ l, net (e :: l) = net [e] + net l := by
      intro l
      obtain ⟨t, op⟩ := e
      rcases ho _ (List.mem_cons_self ..) with h | h <;> simp only at h <;> subst h <;> simp only [net] <;> omega
    have h1 : InRange (v + net [e]) := by simpa using hr 1
    have hs : step win ⟨v, rs⟩ e = .ok ⟨v + net [e], rs ++ [(e.1, v + net [e])]⟩ := by
      obtain ⟨t, op⟩ := e
      unfold step
      rcases ho _ (List.mem_cons_self ..) with h | h <;> simp only at h <;> subst h
      · have : v + net [(t, Op.incr)] = v + 1 := by simp only [net]; omega
        rw [this] at h1 ⊢
        unfold apply
        cases win
        · simp only [expr_inRange h1, wrap_inRange h1]; rfl
        · simp only [wrap_inRange h1]; rfl
      · have : v + net [(t, Op.decr)] = v - 1 := by simp only [net]; omega
        rw [this] at h1 ⊢
        unfold apply
        cases win
        · simp only [expr_inRange h1, wrap_inRange h1]; rfl
        · simp only [wrap_inRange h1]; rfl
    rw [runAll, hs]
    simp only
    rw [C145_counts_partial win es (v + net [e]) _ (fun x hx => ho x (List.mem_cons_of_mem _ hx)) ?_]
    · congr 2
      · rw [hnet es]; omega
      · rw [List.append_assoc, List.length_cons, List.range_succ_eq_map, List.map_cons, List.map_map]
        congr 1
        rw [List.singleton_append]
        congr 1
        apply List.map_congr_left
        intro i _
        simp only [Function.comp, Nat.succ_eq_add_one, List.getElem?_cons_succ, List.take_succ_cons]
        rw [hnet (es.take (i + 1))]
        congr 1
        omega
    · intro k
      have := hr (k + 1)
      rw [List.take_succ_cons, hnet] at this
      rwa [show v + net [e] + net (es.take k) = v + (net [e] + net (es.take k)) by omega]

/-- Three threads. -/
example : runAll (step false) ⟨5, []⟩ [(0, .incr), (1, .decr), (2, .incr), (1, .incr)] = .ok ⟨7, [(0, 6), (1, 5), (2, 6), (1, 7)]⟩ := by
  have := C145_counts_partial false [(0, .incr), (1, .decr), (2, .incr), (1, .incr)] 5 [] (by decide) (fun k => by
    match k with
    | 0 => exact ⟨by decide, by decide⟩
    | 1 => exact ⟨by decide, by decide⟩
    | 2 => exact ⟨by decide, by decide⟩
    | 3 => exact ⟨by decide, by decide⟩
    | k + 4 => rw [List.take_of_length_le (by simp)]; exact ⟨by decide, by decide⟩)
  rw [this]
  decide

/-- `n` increments return `v + 1` to `v + n`, each once. -/
theorem C145_tickets_partial (win : Bool) (es : List (Nat × Op)) (v : Int) (ho : ∀ e ∈ es, e.2 = .incr) (h0 : InRange v)
    (h1 : v + es.length < 2 ^ 63) : ∃ s, runAll (step win) ⟨v, []⟩ es = .ok s ∧
      s.results.map Prod.snd = (List.range es.length).map (fun i : Nat => v + i + 1) := by
  have hn : ∀ k, net (es.take k) = (es.take k).length := fun k => net_incr _ fun e he => ho e (List.mem_of_mem_take he)
  refine ⟨_, C145_counts_partial win es v [] (fun e he => .inl (ho e he)) (fun k => ?_), ?_⟩
  · rw [hn, List.length_take]
    unfold InRange at *
    omega
  · simp only [List.nil_append, List.map_map]
    apply List.map_congr_left
    intro i hi
    rw [List.mem_range] at hi
    simp only [Function.comp, hn, List.length_take]
    omega

/-- `n` decrements from `n` return `n - 1` down to 0: exactly one returns 0, and it is the last. -/
theorem C145_last_partial (win : Bool) (es : List (Nat × Op)) (ho : ∀ e ∈ es, e.2 = .decr) (h1 : (es.length : Int) < 2 ^ 63) :
    ∃ s, runAll (step win) ⟨es.length, []⟩ es = .ok s ∧ s.value = 0 ∧
      s.results.map Prod.snd = (List.range es.length).map (fun i : Nat => (es.length : Int) - 1 - i) := by
  have hn : ∀ k, net (es.take k) = -(es.take k).length := fun k => net_decr _ fun e he => ho e (List.mem_of_mem_take he)
  refine ⟨_, C145_counts_partial win es es.length [] (fun e he => .inr (ho e he)) (fun k => ?_), ?_, ?_⟩
  · rw [hn, List.length_take]
    unfold InRange
    omega
  · simp only [net_decr es ho]
    omega
  · simp only [List.nil_append, List.map_map]
    apply List.map_congr_left
    intro i hi
    rw [List.mem_range] at hi
    simp only [Function.comp, hn, List.length_take]
    omega

example : ∀ win, runAll (step win) ⟨3, []⟩ [(7, .decr), (4, .decr), (7, .decr)] = .ok ⟨0, [(7, 2), (4, 1), (7, 0)]⟩ := by decide

/-- Of any number of attempts to replace `c` by other values exactly the first succeeds: it is told `c`, the value is its own
afterwards, and all the others are told that value. -/
theorem C145_one_wins (win : Bool) (c x : Int) (t : Nat) (es : List (Nat × Op)) (hx : x ≠ c) (h : ∀ e ∈ es, ∃ y, e.2 = .cas c y) :
    runAll (step win) ⟨c, []⟩ ((t, .cas c x) :: es) = .ok ⟨x, (t, c) :: es.map fun e => (e.1, x)⟩ := by
  have : step win ⟨c, []⟩ (t, .cas c x) = .ok ⟨x, [(t, c)]⟩ := by
    unfold step apply
    simp only [if_true]
    rfl
  rw [runAll, this]
  simp only
  rw [cas_fail win es c x _ hx h]
  rfl

example : ∀ win, runAll (step win) ⟨0, []⟩ [(1, .cas 0 10), (2, .cas 0 20), (3, .cas 0 30)] = .ok ⟨10, [(1, 0), (2, 10), (3, 10)]⟩ := by
  decide

/-- Values passed on with `exchange` are neither lost nor doubled: the first value and all those put in, in order, are those the
calls return followed by the one that is left. -/
theorem C145_exchange (win : Bool) : ∀ (es : List (Nat × Int)) (v : Int), ∃ s,
    runAll (step win) ⟨v, []⟩ (es.map fun e => (e.1, .exchange e.2)) = .ok s ∧
      s.results.map Prod.fst = es.map Prod.fst ∧ s.results.map Prod.snd ++ [s.value] = v :: es.map Prod.snd := by
  have main : ∀ (es : List (Nat × Int)) (v : Int) (rs : List (Nat × Int)), ∃ s,
      runAll (step win) ⟨v, rs⟩ (es.map fun e => (e.1, .exchange e.2)) = .ok s ∧
        s.results.map Prod.fst = rs.map Prod.fst ++ es.map Prod.fst ∧
        s.results.map Prod.snd ++ [s.value] = rs.map Prod.snd ++ v :: es.map Prod.snd := by
    intro es
    induction es with
    | nil => intro v rs; exact ⟨_, rfl, by simp, by simp⟩
    | cons e es ih =>
      intro v rs
      obtain ⟨s, h1, h2, h3⟩ := ih e.2 (rs ++ [(e.1, v)])
      refine ⟨s, ?_, ?_, ?_⟩
      · rw [List.map_cons, runAll]
        exact h1
      · rw [h2]; simp
      · rw [h3]; simp
  intro es v
  simpa using main es v []

example : ∀ win, runAll (step win) ⟨0, []⟩ [(4, .exchange 10), (2, .exchange 20), (4, .exchange 30)] = .ok ⟨30, [(4, 0), (2, 10), (4, 20)]⟩ := by
  decide

/-- Threads that count with `load` and `compare_and_swap` lose nothing, whatever the schedule: the value grows exactly by the
number of rounds completed, as long as it fits. -/
theorem C145_loop_partial (win : Bool) (v : Int) (hv : InRange v) (n : Nat) (ts : List Nat) (hn : ∀ t ∈ ts, t < n)
    (hr : v + ts.length < 2 ^ 63) : ∃ s, runAll (loopStep win) ⟨v, fun _ => none, fun _ => 0⟩ ts = .ok s ∧
      s.value = v + (((List.range n).map s.done).sum : Nat) := by
  have main : ∀ (ts : List Nat) (s : LoopSt) (m : Nat), (∀ t ∈ ts, t < n) → v + m + ts.length < 2 ^ 63 →
      (v ≤ s.value ∧ s.value ≤ v + m ∧ (∀ t x, s.loaded t = some x → v ≤ x ∧ x ≤ s.value) ∧
        s.value = v + (((List.range n).map s.done).sum : Nat)) →
      ∃ s', runAll (loopStep win) s ts = .ok s' ∧ s'.value = v + (((List.range n).map s'.done).sum : Nat) := by
    intro ts
    induction ts with
    | nil => intro s m _ _ h; exact ⟨s, rfl, h.2.2.2⟩
    | cons t ts ih =>
      intro s m hn hm ⟨h1, h2, h3, h4⟩
      rw [List.length_cons] at hm
      rw [runAll]
      unfold loopStep
      cases hl : s.loaded t with
      | none =>
        simp only [apply, Except.map]
        refine ih _ m (fun t ht => hn t (List.mem_cons_of_mem _ ht)) (by omega) ⟨h1, h2, fun k x hk => ?_, h4⟩
        simp only at hk ⊢
        split at hk
        · cases hk; omega
        · exact h3 k x hk
      | some x =>
        obtain ⟨hx1, hx2⟩ := h3 t x hl
        have hxr : InRange (x + 1) := by unfold InRange at *; omega
        simp only [expr_inRange hxr, Except.bind, apply, Except.map]
        by_cases hvx : s.value = x
        · have hsum : ((List.range n).map fun k => if k = t ∧ s.value = x then s.done k + 1 else s.done k).sum =
              ((List.range n).map s.done).sum + 1 := by
            have : (fun k => if k = t ∧ s.value = x then s.done k + 1 else s.done k) = fun k => s.done k + if k = t then 1 else 0 := by
              funext k
              by_cases hk : k = t
              · rw [if_pos ⟨hk, hvx⟩, if_pos hk]
              · rw [if_neg (fun c => hk c.1), if_neg hk, Nat.add_zero]
            rw [this]
            have hsplit : ∀ (l : List Nat), (l.map fun k => s.done k + if k = t then 1 else 0).sum =
                (l.map s.done).sum + l.count t := by
              intro l
              induction l with
              | nil => rfl
              | cons a l ih =>
                rw [List.map_cons, List.sum_cons, ih, List.map_cons, List.sum_cons, List.count_cons]
                by_cases ha : a = t
                · simp only [ha, if_true, beq_self_eq_true]; omega
                · simp only [if_neg ha, beq_eq_false_iff_ne.2 ha, Bool.false_eq_true, if_false]; omega
            rw [hsplit, List.count_range, if_pos (hn t (List.mem_cons_self ..))]
          refine ih _ (m + 1) (fun t ht => hn t (List.mem_cons_of_mem _ ht)) (by omega) ⟨?_, ?_, fun k y hk => ?_, ?_⟩
          · simp only [if_pos hvx]; omega
          · simp only [if_pos hvx]; omega
          · simp only [if_pos hvx] at hk ⊢
            split at hk
            · cases hk
            · have := h3 k y hk; omega
          · simp only
            rw [if_pos hvx, hsum]
            omega
        · refine ih _ m (fun t ht => hn t (List.mem_cons_of_mem _ ht)) (by omega) ⟨?_, ?_, fun k y hk => ?_, ?_⟩
          · simp only [if_neg hvx]; omega
          · simp only [if_neg hvx]; omega
          · simp only [if_neg hvx] at hk ⊢
            split at hk
            · cases hk
            · exact h3 k y hk
          · simp only [if_neg hvx]
            have : (fun k => if k = t ∧ s.value = x then s.done k + 1 else s.done k) = s.done := by
              funext k
              rw [if_neg (fun c => hvx c.2)]
            rw [this]
            exact h4
  refine main ts _ 0 hn (by omega) ⟨Int.le_refl _, by simp, fun t x h => (by cases h), ?_⟩
  have : ∀ l : List Nat, (l.map fun _ => 0).sum = 0 := by
    intro l
    induction l with
    | nil => rfl
    | cons a l ih => simpa using ih
  rw [this]
  simp

/-- Two threads; the second is overtaken once and tries again. -/
example : ∀ win, (runAll (loopStep win) ⟨0, fun _ => none, fun _ => 0⟩ [0, 1, 0, 1, 1, 1]).map
    (fun s : LoopSt => (s.value, s.done 0, s.done 1)) = .ok (2, 1, 1) := by decide

/-- False at the ends of the range: on POSIX the result is undefined, on Windows the count wraps. -/
theorem C145_false :
    runAll (step false) ⟨2 ^ 63 - 1, []⟩ [(0, .incr)] = .error .ub ∧ runAll (step false) ⟨-2 ^ 63, []⟩ [(0, .decr)] = .error .ub ∧
    runAll (step true) ⟨2 ^ 63 - 1, []⟩ [(0, .incr)] = .ok ⟨-2 ^ 63, [(0, -2 ^ 63)]⟩ ∧
    runAll (step true) ⟨-2 ^ 63, []⟩ [(0, .decr)] = .ok ⟨2 ^ 63 - 1, [(0, 2 ^ 63 - 1)]⟩ := by
  refine ⟨?_, ?_, ?_, ?_⟩ <;> decide

end Rpp.Props
