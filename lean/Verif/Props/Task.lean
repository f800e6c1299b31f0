import Verif.Proof.Task

/-!
# `Async::Task` (C55, C56)
-/

namespace Rpp.Props
open Rpp Rpp.Task

/-- C55. In every interleaving of the coroutine, any number of users awaiting or blocking, and the owner:
nothing accesses the frame after it was destroyed, no coroutine is resumed that is not suspended and the
destructor of the task does not end the program (the run is `ok`); the frame is destroyed at most once,
not while the coroutine runs and not while the `Task` object lives; and when the coroutine has finished
and the `Task` object is destroyed, the frame has been destroyed exactly once. -/
theorem C55_frame (v : Nat) (ks : List Kind) (es : List Ev) :
    ∃ s, runAll step (St.init v ks) es = .ok s ∧ s.destroyed ≤ 1 ∧
      (s.frame = false ↔ s.destroyed = 1) ∧
      (s.owner = .holds ∨ s.co ≠ .fin → s.destroyed = 0) ∧
      (s.owner = .gone → s.co = .fin → s.destroyed = 1) := by
  obtain ⟨s, h1, h2⟩ := runAll_inv step_inv es _ (init_inv v ks)
  refine ⟨s, h1, ?_⟩
  have hph := h2.phase
  generalize s.owner = o at *
  generalize s.frame = f at *
  generalize s.destroyed = d at *
  generalize s.word = w at *
  generalize s.co = c at *
  cases hph with
  | held _ _ a b => refine ⟨by omega, by simp, fun _ => rfl, by simp⟩
  | left _ a => exact ⟨by omega, by simp, fun _ => rfl, fun _ h => by subst h; exact a.elim⟩
  | resume k => simp
  | destroy => simp
  | done => simp
  | own => simp
  | fin w => simp

/-- C55. The frame does get destroyed: when the `Task` object is gone, one more step of whoever is to destroy the
frame does it. Either the coroutine has yet to finish (then it destroys the frame when it does), or its
destructor is at it, or it is done. -/
theorem C55_destroyed (v : Nat) (ks : List Kind) (es : List Ev) (s : St)
    (hs : runAll step (St.init v ks) es = .ok s) (ho : s.owner ≠ .holds) :
    ∃ n m s', runAll step s (List.replicate n .co ++ List.replicate m .own) = .ok s' ∧ s'.destroyed = 1 ∧
      n + m ≤ 5 := by
  obtain ⟨s0, h1, h2⟩ := runAll_inv step_inv es _ (init_inv v ks)
  rw [hs] at h1; cases h1
  have hph := h2.phase
  have hstep : ∀ es, ∃ s', runAll step s es = .ok s' ∧ Inv s' := fun es => runAll_inv step_inv es s h2
  obtain ⟨word, slot, flag, frame, destroyed, co, owner, users, got⟩ := s
  dsimp only at *
  cases hph with
  | held _ _ a b => exact absurd rfl ho
  | left _ a =>
    cases co with
    | run v => exact ⟨5, 0, _, rfl, rfl, by omega⟩
    | stored => exact ⟨4, 0, _, rfl, rfl, by omega⟩
    | waking => exact ⟨3, 0, _, rfl, rfl, by omega⟩
    | signalled => exact ⟨2, 0, _, rfl, rfl, by omega⟩
    | destroy => exact a.elim
    | resume => exact a.elim
    | fin => exact a.elim
  | resume k => exact absurd rfl ho
  | destroy => exact ⟨1, 0, _, rfl, rfl, by omega⟩
  | done => exact absurd rfl ho
  | own => exact ⟨0, 1, _, rfl, rfl, by omega⟩
  | fin w => exact ⟨0, 0, _, rfl, rfl, by omega⟩

/-- The full statement of C56 (false, see `C56_false`): in every schedule with any users, no result is
returned before one is stored. -/
def TaskFull : Prop := ∀ (v : Nat) (ks : List Kind) (es : List Ev),
  ∃ s, runAll step (St.init v ks) es = .ok s ∧ .unset ∉ s.got

/-- C56. If at most one coroutine awaits the task (any number of threads may block on it), then in every
interleaving every user continues only after the result was stored, each finished user got exactly one
result and the first one is the result; no coroutine is resumed twice (the run is `ok`), and
when the task's coroutine has finished no user is left suspended. Missing: several awaiting coroutines. -/
theorem C56_awaiter_partial (v : Nat) (ks : List Kind) (h1 : ks.count .await ≤ 1) (es : List Ev) :
    ∃ s, runAll step (St.init v ks) es = .ok s ∧ .unset ∉ s.got ∧
      (∀ x, s.got.head? = some x → x = .full v) ∧
      s.got.length = s.users.countP (·.2 = .done) ∧
      (s.co = .fin → ∀ u ∈ s.users, u.2 ≠ .suspended) := by
  obtain ⟨s, h2, h3, h4, h5⟩ := runAll_inv (I := fun s => Inv s ∧ Val v s ∧ s.users.map (·.1) = ks)
    (fun s e h => by
      obtain ⟨s', a, b⟩ := step_inv s e h.1
      exact ⟨s', a, b, step_val v s s' e h.1 h.2.1 a, by rw [kinds_step s s' e a]; exact h.2.2⟩)
    es _ ⟨init_inv v ks, init_val v ks, by
      show List.map _ (List.map _ ks) = ks
      rw [List.map_map]; exact List.map_id ks⟩
  have hsg : Single s := single_of_count (by rw [h5]; exact h1)
  refine ⟨s, h2, ?_, ?_, ?_, ?_⟩
  · have := h4.got hsg
    generalize s.slot = sl at *
    generalize s.got = g at *
    cases this with
    | unset => simp
    | full => simp
    | moved k => intro h; simp [List.mem_replicate] at h
  · have := h4.got hsg
    generalize s.slot = sl at *
    generalize s.got = g at *
    cases this with
    | unset => simp
    | full => simp
    | moved k => intro x hx; simp at hx; exact hx.symm
  · rw [h4.count, sum_fin1]
  · intro hc u hu hs
    obtain ⟨t, ht⟩ := List.getElem?_of_mem hu
    obtain ⟨k, p⟩ := u
    dsimp only at hs
    subst hs
    exact not_suspended h3 hc t k ht

/-- C56. When the task's coroutine has finished (after `as`), every user that has started is finished after two
steps of its own, whatever happens in between. This holds for any number of awaiting coroutines. -/
theorem C56_finishes (v : Nat) (ks : List Kind) (as bs : List Ev) (s : St) (t : Nat)
    (hs : runAll step (St.init v ks) as = .ok s) (hc : s.co = .fin) (hb : Ev.start t ∉ bs)
    (h2 : 2 ≤ bs.count (.go t)) :
    ∃ s', runAll step (St.init v ks) (as ++ bs) = .ok s' ∧
      ∀ k p, s'.users[t]? = some (k, p) → p = .idle ∨ p = .done := by
  obtain ⟨s0, h0, hi, hv⟩ := runAll_inv (I := fun s => Inv s ∧ Val v s)
    (fun s e h => by
      obtain ⟨s', a, b⟩ := step_inv s e h.1
      exact ⟨s', a, b, step_val v s s' e h.1 h.2 a⟩) as _ ⟨init_inv v ks, init_val v ks⟩
  rw [hs] at h0; cases h0
  rw [runAll_append _ as bs _ s hs]
  have hstep : ∀ (s : St) (e : Ev), e ≠ .start t → (Inv s ∧ Val v s) ∧ s.co = .fin →
      ∃ s', step s e = .ok s' ∧ (Inv s' ∧ Val v s') ∧ s'.co = .fin := by
    intro s e _ h
    obtain ⟨s', a, b⟩ := step_inv s e h.1.1
    exact ⟨s', a, ⟨b, step_val v s s' e h.1.1 h.1.2 a⟩, fin_step s s' e h.2 a⟩
  have hst : ∀ e ∈ bs, e ≠ .start t := fun e he c => hb (c ▸ he)
  obtain ⟨s', h4, h5⟩ := runAll_inv_of hstep bs s hst ⟨⟨hi, hv⟩, hc⟩
  refine ⟨s', h4, ?_⟩
  have h6 := runAll_drain hstep (left t) (· == Ev.go t)
    (fun s e s' he h h7 => left_step v t s s' e h.1.1 h.1.2 h.2 he h7) bs s s' hst ⟨⟨hi, hv⟩, hc⟩ h4
  have h7 : bs.countP (· == Ev.go t) = bs.count (Ev.go t) := rfl
  have h8 : left t s ≤ 2 := by
    unfold left
    cases hx : s.users[t]? with
    | none => simp
    | some x =>
      obtain ⟨k, p⟩ := x
      cases p with
      | suspended => exact absurd hx (not_suspended hi hc _ _)
      | _ => simp [steps]
  have h9 : left t s' = 0 := by omega
  intro k p hp
  rw [left_eq hp] at h9
  cases p <;> simp [steps] at h9 <;> simp

/-- C56 is false as stated: with two coroutines awaiting one task the compare and swap of the second fails
because the first one's address is there, and it goes on at once with a value that was never stored. -/
theorem C56_false : ¬ TaskFull := by
  intro h
  obtain ⟨s, h1, h2⟩ := h 7 [.await, .await] [.start 0, .start 1, .go 0, .go 1, .go 0, .go 1, .go 1]
  have : (runAll step (St.init 7 [.await, .await])
      [.start 0, .start 1, .go 0, .go 1, .go 0, .go 1, .go 1]).map (·.got) = .ok [.unset] := by
    decide +kernel
  rw [h1] at this
  injection this with this
  have this : s.got = [.unset] := this
  exact h2 (by rw [this]; simp)

/-- In general: whenever the coroutine still runs and a coroutine is suspended on the task, every further coroutine that awaits
the task goes on after three steps without the result, which has not been stored. -/
theorem C56_second (v : Nat) (ks : List Kind) (as : List Ev) (s : St) (t k w : Nat)
    (hs : runAll step (St.init v ks) as = .ok s) (hc : s.co = .run w) (hk : s.word = .cont k)
    (ht : s.users[t]? = some (.await, .idle)) :
    ∃ s' x, runAll step (St.init v ks) (as ++ [.start t, .go t, .go t, .go t]) = .ok s' ∧
      s'.got = s.got ++ [x] ∧ (∀ u, x ≠ .full u) ∧ s'.users[t]? = some (.await, .done) ∧ s'.co = .run w := by
  obtain ⟨s0, h0, hi, he⟩ := runAll_inv (I := fun s => Inv s ∧ Early s)
    (fun s e h => by
      obtain ⟨s', a, b⟩ := step_inv s e h.1
      exact ⟨s', a, b, early_step e h.2 a⟩) as _ ⟨init_inv v ks, fun w _ u hx => by cases hx⟩
  rw [hs] at h0
  cases h0
  have ho : s.owner = .holds := by
    have hp := hi.phase
    rw [hc, hk] at hp
    generalize s.owner = o at *
    generalize s.frame = f at *
    generalize s.destroyed = d at *
    cases hp with
    | held => rfl
  have hf := hi.frame ho
  obtain ⟨hlt, hget⟩ := List.getElem?_eq_some_iff.1 ht
  rw [runAll_append _ as _ _ s hs]
  refine ⟨{ s with got := s.got ++ [s.slot], slot := .moved, users := s.users.set t (.await, .done) }, s.slot, ?_, rfl,
    he w hc, ?_, hc⟩
  · simp [runAll, step, hget, ho, hlt, access, hf, hk, bind, Except.bind]
  · show (s.users.set t (.await, .done))[t]? = _
    simp [hlt]

example : (runAll step (St.init 7 [.await, .block, .await]) [.start 0, .go 0, .start 1, .go 0, .go 1]).map
    (fun s => (s.co, s.word, s.users[2]?)) = .ok (.run 7, .cont 0, some (.await, .idle)) := by decide +kernel

/-- The awaiter is suspended, resumed by the coroutine, and drops the task. -/
example : (runAll step (St.init 7 [.await])
    [.start 0, .go 0, .go 0, .co, .drop, .co, .co, .co, .drop, .co, .go 0, .drop, .own]).map
      (fun s => (s.got, s.destroyed, s.frame)) = .ok ([.full 7], 1, false) := by decide +kernel
/-- The task is blocked on, and dropped before the coroutine has reached its final suspend point. -/
example : (runAll step (St.init 7 [.block])
    [.start 0, .go 0, .co, .co, .go 0, .go 0, .drop, .co]).map
      (fun s => (s.got, s.destroyed, s.co, s.word)) = .ok ([.full 7], 0, .signalled, .abandoned) := by
  decide +kernel
example : (runAll step (St.init 7 [.block])
    [.start 0, .go 0, .co, .co, .go 0, .go 0, .drop, .co, .co, .co]).map
      (fun s => (s.got, s.destroyed, s.co)) = .ok ([.full 7], 1, .fin) := by decide +kernel
/-- The coroutine finishes between the load and the compare and swap. -/
example : (runAll step (St.init 7 [.await])
    [.start 0, .go 0, .co, .co, .co, .co, .go 0]).map (fun s => (s.co, s.users)) =
      .ok (.fin, [(.await, .take)]) := by decide +kernel

end Rpp.Props
