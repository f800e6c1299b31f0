import Verif.Proof.PoolLive

/-!
# `Async::Pool`: jobs (C57)
-/

namespace Rpp.Props
open Rpp Rpp.Pool

/-- The job a thread inside `enqueue` has not yet put into a queue. -/
def poolHand : Sub → Option Nat
  | .lock _ j => some j
  | .push _ j => some j
  | _ => none

/-- The queue a thread inside `enqueue` is busy with. -/
def poolBusy : Sub → Option Nat
  | .idle => none
  | .lock i _ => some i
  | .push i _ => some i
  | .signal i => some i
  | .unlock i => some i

/-- What C57 asks of a state. `order`: each queue is first in, first out. `once`: every submitted job is exactly
once either taken by a worker, or waiting in a queue, or still in the hands of the thread that submits it.
`one`: a running worker runs the job it took last. `mutex`: the worker and a submitting thread do not touch a
queue at the same time. `wake`: no worker sleeps at a queue with a job that nobody is about to
signal. `down`: when the destructor has finished, all workers have returned and precisely the jobs that
no worker took have been destroyed, and before that none. -/
structure PoolSafe (s : St) : Prop where
  order : ∀ q ∈ s.qs, q.pushed = q.taken ++ q.jobs
  once : s.submitted.Perm
    ((s.qs.map Q.taken).flatten ++ (s.qs.map Q.jobs).flatten ++ s.subs.filterMap poolHand)
  one : ∀ q ∈ s.qs, ∀ j, q.w = .run j → q.taken.getLast? = some j
  mutex : ∀ (i : Nat) (q : Q) (t u : Nat) (j k : Nat), s.qs[i]? = some q → s.subs[t]? = some (.push i j) →
    q.w ≠ .check ∧ q.w ≠ .check2 ∧ (s.subs[u]? = some (.push i k) → u = t)
  wake : ∀ (i : Nat) (q : Q), s.qs[i]? = some q → q.jobs ≠ [] → q.w = .asleep →
    ∃ t : Nat, s.subs[t]? = some (.signal i)
  down : if s.dtor = .gone then (∀ q ∈ s.qs, q.w = .exit) ∧ s.destroyed = (s.qs.map Q.jobs).flatten
    else s.destroyed = []

/-- The full statement of C57, for `h` hardware threads (`h - 1` workers) and `m` other threads (false,
see `C57_false`). -/
def PoolFull : Prop := ∀ (h m : Nat) (es : List Ev), 1 ≤ h →
  ∃ s, runAll step (St.init (h - 1) m) es = .ok s ∧ PoolSafe s

theorem poolSafe_of_inv {s : St} (h : Inv s) : PoolSafe s := by
  refine ⟨?_, ?_, ?_, ?_, ?_, ?_⟩
  · intro q hq
    obtain ⟨i, hx⟩ := List.mem_iff_getElem?.mp hq
    exact (h.q i q hx).fifo
  · rw [List.perm_iff_count]
    intro j
    rw [h.cons j, List.count_append, List.count_append, List.count_flatten, List.count_flatten,
      List.map_map, List.map_map]
    have e1 : ∀ l : List Q, (∀ q ∈ l, q.pushed = q.taken ++ q.jobs) →
        (l.map fun q => q.pushed.count j).sum =
          (l.map (List.count j ∘ Q.taken)).sum + (l.map (List.count j ∘ Q.jobs)).sum := by
      intro l
      induction l with
      | nil => intro _; rfl
      | cons q l ih =>
        intro hl
        simp only [List.map_cons, List.sum_cons, Function.comp]
        have := ih (fun q hq => hl q (.tail _ hq))
        rw [hl q (.head _), List.count_append]
        simp only [Function.comp_def] at this
        simp only [Function.comp_def]
        omega
    have e2 : ∀ l : List Sub, (l.map (Sub.hand j)).sum = (l.filterMap poolHand).count j := by
      intro l
      induction l with
      | nil => rfl
      | cons u l ih =>
        rw [List.map_cons, List.sum_cons, ih, List.filterMap_cons]
        cases u <;> simp [Sub.hand, poolHand, List.count_cons] <;> split <;> omega
    rw [e1 s.qs (fun q hq => by
      obtain ⟨i, hx⟩ := List.mem_iff_getElem?.mp hq
      exact (h.q i q hx).fifo), e2]
  · intro q hq
    obtain ⟨i, hx⟩ := List.mem_iff_getElem?.mp hq
    exact (h.q i q hx).last
  · intro i q t u j k hx ht
    have Q := h.q i q hx
    have hh := (Q.sub t).mpr ⟨_, ht, rfl⟩
    refine ⟨fun c => ?_, fun c => ?_, fun c => ?_⟩
    · have := Q.worker.mpr (.inl c); rw [hh] at this; cases this
    · have := Q.worker.mpr (.inr c); rw [hh] at this; cases this
    · have := (Q.sub u).mpr ⟨_, c, rfl⟩; rw [hh] at this; injection this with this
      injection this with this; exact this.symm
  · intro i q hx a b
    exact (h.q i q hx).awake b a
  · split
    · rename_i hg; exact ⟨(h.gone hg).1, (h.gone hg).2.2⟩
    · rename_i hg; exact h.live hg

theorem pool_reach (n m : Nat) (hn : n ≠ 0) (es : List Ev) :
    ∃ s, runAll step (St.init n m) es = .ok s ∧ Inv s ∧ s.qs.length ≠ 0 :=
  runAll_inv (I := fun s => Inv s ∧ s.qs.length ≠ 0)
    (fun s e h => by
      obtain ⟨s', a, b⟩ := step_inv s e h.2 h.1
      exact ⟨s', a, b, by rw [length_step a]; exact h.2⟩) es _
    ⟨init_inv n m, by simpa [St.init] using hn⟩

/-- C57. For at least two hardware threads, any number of submitting threads and every schedule. Missing: one
hardware thread. -/
theorem C57_jobs_partial (h m : Nat) (es : List Ev) (hh : 2 ≤ h) :
    ∃ s, runAll step (St.init (h - 1) m) es = .ok s ∧ PoolSafe s := by
  obtain ⟨s, h1, h2, _⟩ := pool_reach (h - 1) m (by omega) es
  exact ⟨s, h1, poolSafe_of_inv h2⟩

/-- C57, no job is lost while the pool lives. Let the pool be alive after `as`, queue `i` hold the
jobs `q.jobs`, and no thread be submitting to it. Then, if nobody submits more to it and the pool is not
destroyed in `bs`, all these jobs are taken, in order, after four steps of worker `i` for each, whatever
else happens. (A step of a running worker ends the job: jobs are taken to end.) -/
theorem C57_runs (n m : Nat) (as bs : List Ev) (s : St) (i : Nat) (q : Q)
    (hs : runAll step (St.init n m) as = .ok s) (hl : s.dtor = .live) (hq : s.qs[i]? = some q)
    (hf : ∀ u ∈ s.subs, poolBusy u ≠ some i)
    (hb : Ev.shutdown ∉ bs ∧ ∀ t j, Ev.submit t j i ∉ bs) (hc : 4 * q.jobs.length ≤ bs.count (.work i)) :
    ∃ s' q', runAll step (St.init n m) (as ++ bs) = .ok s' ∧ s'.qs[i]? = some q' ∧
      q'.taken = q.taken ++ q.jobs ∧ q'.jobs = [] := by
  have hn : n ≠ 0 := by
    rintro rfl
    have key : ∀ (es : List Ev) (s s' : St), s.qs = [] → runAll step s es = .ok s' → s'.qs = [] := by
      intro es
      induction es with
      | nil => intro s s' h h1; cases h1; exact h
      | cons e r ih =>
        intro s s' h h1
        unfold runAll at h1
        cases h2 : step s e with
        | error x => rw [h2] at h1; cases h1
        | ok s1 =>
          rw [h2] at h1
          refine ih s1 s' ?_ h1
          have := length_step h2
          rw [h] at this
          exact List.length_eq_zero_iff.mp this
    rw [key as _ s rfl hs] at hq
    simp at hq
  obtain ⟨s0, h0, hi, hne⟩ := pool_reach n m hn as
  rw [hs] at h0; cases h0
  rw [runAll_append step as bs _ s hs]
  have hquiet : Quiet i s := by
    intro t u hu c
    have := hf u (List.mem_of_getElem? hu)
    cases u <;> simp [Sub.idx, poolBusy] at c this <;> exact this c
  have hstep : ∀ (s : St) (e : Ev), Other i e →
      (Inv s ∧ s.qs.length ≠ 0) ∧ (Quiet i s ∧ s.dtor = .live) ∧ (∀ x, s.qs[i]? = some x → x.pushed = q.pushed) →
      ∃ s', step s e = .ok s' ∧
      (Inv s' ∧ s'.qs.length ≠ 0) ∧ (Quiet i s' ∧ s'.dtor = .live) ∧
        (∀ x, s'.qs[i]? = some x → x.pushed = q.pushed) := by
    intro s e he h
    obtain ⟨s', a, b⟩ := step_inv s e h.1.2 h.1.1
    exact ⟨s', a, ⟨b, by rw [length_step a]; exact h.1.2⟩,
      ⟨quiet_step he h.2.1.1 a, live_step he.1 h.2.1.2 a⟩, pushed_step h.2.1.1 a _ h.2.2⟩
  have hst : ∀ e ∈ bs, Other i e := fun e he =>
    ⟨fun c => hb.1 (c ▸ he), fun t j c => hb.2 t j (c ▸ he)⟩
  have hbeg : (Inv s ∧ s.qs.length ≠ 0) ∧ (Quiet i s ∧ s.dtor = .live) ∧
      (∀ x, s.qs[i]? = some x → x.pushed = q.pushed) :=
    ⟨⟨hi, hne⟩, ⟨hquiet, hl⟩, fun x hx => by rw [hq] at hx; injection hx with hx; rw [hx]⟩
  obtain ⟨s', h4, h5, h6, h7⟩ := runAll_inv_of hstep bs s hst hbeg
  have hlen : ∀ (es : List Ev) (s s' : St), runAll step s es = .ok s' → s'.qs.length = s.qs.length := by
    intro es
    induction es with
    | nil => intro s s' h1; cases h1; rfl
    | cons e r ih =>
      intro s s' h1
      unfold runAll at h1
      cases h2 : step s e with
      | error x => rw [h2] at h1; cases h1
      | ok s1 => rw [h2] at h1; rw [ih s1 s' h1, length_step h2]
  have hlt : i < s'.qs.length := by
    rw [hlen bs s s' h4]; exact (List.getElem?_eq_some_iff.mp hq).1
  have hx := List.getElem?_eq_getElem hlt
  refine ⟨s', s'.qs[i], h4, hx, ?_⟩
  have hp := h7 _ hx
  have hfi := (h5.1.q i _ hx).fifo
  generalize s'.qs[i] = q' at *
  have h8 := runAll_drain hstep (left i q.pushed.length) (· == Ev.work i)
    (fun s e s' he h h7 => left_step he h.1.1 h.2.1.1 h.2.1.2
      (fun x hx => by rw [h.2.2 x hx]; exact Nat.le_refl _) h7) bs s s' hst hbeg h4
  have h9 : bs.countP (· == Ev.work i) = bs.count (Ev.work i) := rfl
  have hfq := (hi.q i q hq).fifo
  have h10 : left i q.pushed.length s ≤ 4 * q.jobs.length := by
    unfold left
    rw [hq]; dsimp only
    have := congrArg List.length hfq
    rw [List.length_append] at this
    have hw : q.w.cost ≤ 4 := by cases q.w <;> simp [W.cost]
    split <;> omega
  have h11 : left i q.pushed.length s' = 0 := by omega
  have htake : q.pushed.length ≤ q'.taken.length := by
    unfold left at h11
    rw [hx] at h11; dsimp only at h11
    split at h11
    · assumption
    · rename_i hlt2
      exfalso
      have Q := h5.1.q i _ hx
      have hl1 := congrArg List.length hfi
      rw [List.length_append, hp] at hl1
      have hj : q'.jobs ≠ [] := fun e => by rw [e] at hl1; simp at hl1; omega
      cases hw : q'.w with
      | run j => rw [hw] at h11; simp [W.cost] at h11
      | lock => rw [hw] at h11; simp [W.cost] at h11
      | check => rw [hw] at h11; simp [W.cost] at h11
      | check2 => rw [hw] at h11; simp [W.cost] at h11
      | asleep =>
        obtain ⟨t, ht⟩ := Q.awake hw hj
        exact h6.1 t _ ht rfl
      | exit => exact Q.exit hw h6.2
  have hj : q'.jobs = [] := by
    have := congrArg List.length hfi
    rw [List.length_append, hp] at this
    exact List.length_eq_zero_iff.mp (by omega)
  refine ⟨?_, hj⟩
  rw [hj, List.append_nil, hp] at hfi
  rw [← hfi, hfq]

/-- C57, the destructor comes to its end. Once it has been called (in the state after `as`) and nothing new is
submitted: the threads can make only a bounded number of steps, and as long as the destructor has not
finished there is a thread that can make one, without being woken for no reason. -/
theorem C57_shutdown (n m : Nat) (as : List Ev) (s : St) (hn : n ≠ 0)
    (hs : runAll step (St.init n m) as = .ok s) (hd : s.dtor ≠ .live) :
    ∃ bound, ∀ bs : List Ev, (∀ t j i, Ev.submit t j i ∉ bs) →
      ∃ s', runAll step (St.init n m) (as ++ bs) = .ok s' ∧ changes step s bs ≤ bound ∧
        (s'.dtor = .gone ∨ ∃ e s'', (e = .dtor ∨ ∃ t, e = .sub t ∨ e = .work t) ∧ step s' e = .ok s'' ∧ s'' ≠ s') := by
  obtain ⟨s0, h0, hi, hne⟩ := pool_reach n m hn as
  rw [hs] at h0; cases h0
  have hstep : ∀ (s : St) (e : Ev), NotSubmit e → (Inv s ∧ s.qs.length ≠ 0) ∧ s.shutdown →
      ∃ s', step s e = .ok s' ∧ (Inv s' ∧ s'.qs.length ≠ 0) ∧ s'.shutdown := by
    intro s e he h
    obtain ⟨s', a, b⟩ := step_inv s e h.1.2 h.1.1
    exact ⟨s', a, ⟨b, by rw [length_step a]; exact h.1.2⟩, shutdown_step h.2 a⟩
  refine ⟨rest s, fun bs hb => ?_⟩
  have hst : ∀ e ∈ bs, NotSubmit e := fun e he t j i c => hb t j i (c ▸ he)
  obtain ⟨s', h4, h5, h6⟩ := runAll_inv_of hstep bs s hst ⟨⟨hi, hne⟩, hd⟩
  refine ⟨s', by rw [runAll_append step as bs _ s hs]; exact h4, ?_, ?_⟩
  · exact changes_le hstep rest (fun s e s' he h h7 => rest_step h.1.1 he h.2 h7) bs s hst ⟨⟨hi, hne⟩, hd⟩
  · by_cases hg : s'.dtor = .gone
    · exact .inl hg
    · obtain ⟨e, s'', g, h⟩ := can_step h5.1 h6 hg
      refine .inr ⟨e, s'', ?_, h⟩
      cases e with
      | sub t => exact .inr ⟨t, .inl rfl⟩
      | work t => exact .inr ⟨t, .inr rfl⟩
      | dtor => exact .inl rfl
      | _ => exact g.elim

/-- C57 is false for one hardware thread: the pool has no worker, and the first job divides by zero (the number
of queues) when it looks for a queue. -/
theorem C57_false : ¬ PoolFull := by
  intro h
  obtain ⟨s, h1, _⟩ := h 1 1 [.submit 0 7 0] (by omega)
  have : (runAll step (St.init (1 - 1) 1) [.submit 0 7 0]).map (fun _ => ()) = .error .ub := by
    decide +kernel
  rw [h1] at this
  cases this

/-- Two workers, two submitters: one job wakes a sleeping worker, another goes to the same queue. -/
example : (runAll step (St.init 2 2)
    [.work 0, .work 0, .submit 0 7 0, .submit 1 8 0, .sub 0, .sub 1, .sub 0, .sub 0, .work 0, .sub 0, .sub 1,
      .sub 1, .work 0, .sub 1, .sub 1]).map
      (fun s => (s.qs.map fun q => (q.w, q.jobs, q.taken), s.subs, s.dtor)) =
    .ok ([(.lock, [7, 8], []), (.lock, [], [])], [.idle, .idle], .live) := by decide +kernel
/-- This meets the hypotheses of `C57_runs` for queue 0; eight steps of the worker take both jobs. -/
example : (runAll step (St.init 2 2)
    ([.work 0, .work 0, .submit 0 7 0, .submit 1 8 0, .sub 0, .sub 1, .sub 0, .sub 0, .work 0, .sub 0, .sub 1,
      .sub 1, .work 0, .sub 1, .sub 1] ++ List.replicate 8 (.work 0))).map
      (fun s => (s.qs.map fun q => (q.w, q.jobs, q.taken))) =
    .ok [(.lock, [], [7, 8]), (.lock, [], [])] := by decide +kernel
/-- Shutdown with a job left over: it is destroyed and never run. -/
example : (runAll step (St.init 1 1)
    [.work 0, .work 0, .shutdown, .submit 0 7 0, .sub 0, .sub 0, .sub 0, .dtor, .sub 0, .dtor, .dtor, .dtor,
      .work 0, .dtor, .work 0, .work 0, .dtor]).map
      (fun s => (s.dtor, s.destroyed, s.qs.map fun q => (q.w, q.taken))) =
    .ok (.gone, [7], [(.exit, [])]) := by decide +kernel

end Rpp.Props
