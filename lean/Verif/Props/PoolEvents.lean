import Verif.Proof.PoolEvents

/-!
# `Async::Pool`: events and placement (C58, C59)
-/

namespace Rpp.Props
open Rpp Rpp.PoolEv

/-- The (descriptor, job) pairs that wait in the pool, the first ones by their position in the two vectors. -/
def poolWaiting (s : St) : List (Nat × Nat) :=
  (s.pend.tail.filterMap id).zip s.jobs ++ s.add

/-- What C58 asks of a state. `once`: every registered pair of event and job is exactly once either waiting or
scheduled, where a scheduled job is paired with the event that fired. `fired`: no event is scheduled more
often than it fired. `closed`: exactly the events whose job has been scheduled are closed, once each.
`mine`: the descriptors the pool waits for are all valid and all different. -/
structure PoolEvSafe (s : St) : Prop where
  once : s.registered.Perm (poolWaiting s ++ s.sched)
  fired : ∀ fd, (s.sched.map Prod.fst).count fd ≤ s.fires.count fd
  closed : s.closed = s.sched.map Prod.fst
  mine : none ∉ s.pend ∧ s.pend.Nodup ∧ s.pend.length = s.jobs.length + 1

/-- C58. Every history of registrations, firings and steps of the event thread goes through without error and
leaves every event with its own job. -/
theorem C58_pairs (es : List Ev) : ∃ s, runAll step St.init es = .ok s ∧ PoolEvSafe s := by
  obtain ⟨s, h1, ps, h⟩ := runAll_inv (I := fun s => ∃ ps, Inv ps s)
    (fun s e ⟨_, h⟩ => step_inv s e h) es _ ⟨[], init_inv⟩
  refine ⟨s, h1, ?_, ?_, h.closed, ?_, ?_, ?_⟩
  · have : s.pend.tail.filterMap id = ps := by rw [h.pend]; simp
    unfold poolWaiting
    rw [this]
    exact h.perm
  · intro fd; have := h.fires fd; omega
  · rw [h.pend]; simp
  · rw [h.pend]
    have : (0 :: ps).Nodup := by
      have := h.nodup
      rw [← List.cons_append] at this
      exact (List.nodup_append.mp this).1
    exact List.Pairwise.map some (S := (· ≠ ·)) (fun a b hab c => hab (Option.some.inj c)) this
  · rw [h.pend, h.len]; simp

/-- C58, the job of an event that fired is not forgotten. As long as the pool is not shut down (after `as`), the
event thread alone makes at most a bounded number of steps, and when it can make no more, the job of
every event that has fired has been scheduled: no waiting event is ready. -/
theorem C58_fired (as : List Ev) (s : St) (hs : runAll step St.init as = .ok s) (hn : Ev.shutdown ∉ as) :
    ∃ bound, ∀ bs : List Ev, (∀ e ∈ bs, e = .body ∨ ∃ fd, e = .wait fd) →
      ∃ s', runAll step St.init (as ++ bs) = .ok s' ∧ changes step s bs ≤ bound ∧
        ((∀ p ∈ poolWaiting s', p.1 ∉ s'.ready) ∨
          ∃ e s'', (e = .body ∨ ∃ fd, e = .wait fd) ∧ step s' e = .ok s'' ∧ s'' ≠ s') := by
  have hlive : ∀ (s : St) (e : Ev), e ≠ .shutdown → (∃ ps, Inv ps s) ∧ s.shutdown = false ∧ s.phase ≠ .done →
      ∃ s', step s e = .ok s' ∧ (∃ ps, Inv ps s') ∧ s'.shutdown = false ∧ s'.phase ≠ .done := by
    intro s e he ⟨⟨ps, h⟩, h2, h3⟩
    obtain ⟨s', a, b⟩ := step_inv s e h
    refine ⟨s', a, b, ?_⟩
    by_cases ho : Own e
    · exact shut_step ho h2 h3 a
    · cases e with
      | body => exact absurd (.inl rfl) ho
      | wait fd => exact absurd (.inr ⟨fd, rfl⟩) ho
      | shutdown => exact absurd rfl he
      | register fd job => unfold step at a; dsimp only at a; split at a <;> cases a <;> exact ⟨h2, h3⟩
      | fire fd => unfold step at a; dsimp only at a; split at a <;> cases a <;> exact ⟨h2, h3⟩
  obtain ⟨s0, h0, hi⟩ := runAll_inv_of hlive as _ (fun e he c => hn (c ▸ he))
    ⟨⟨[], init_inv⟩, rfl, by simp [St.init]⟩
  rw [hs] at h0; cases h0
  refine ⟨rest s, fun bs hb => ?_⟩
  have hne : ∀ e ∈ bs, Own e := hb
  have hstep : ∀ (s : St) (e : Ev), Own e → (∃ ps, Inv ps s) ∧ s.shutdown = false ∧ s.phase ≠ .done →
      ∃ s', step s e = .ok s' ∧ (∃ ps, Inv ps s') ∧ s'.shutdown = false ∧ s'.phase ≠ .done :=
    fun s e he h => hlive s e (by rcases he with rfl | ⟨fd, rfl⟩ <;> simp) h
  obtain ⟨s', h4, ⟨ps, h5⟩, h6, h7⟩ := runAll_inv_of hstep bs s hne hi
  refine ⟨s', by rw [runAll_append step as bs _ s hs]; exact h4, ?_, ?_⟩
  · exact changes_le hstep rest (fun s e s' he h h7 => by
      obtain ⟨⟨ps, h⟩, h2, _⟩ := h
      exact rest_step h h2 he h7) bs s hne hi
  · by_cases hr : s'.ready = []
    · left; intro p _; rw [hr]; simp
    · exact .inr (can_step h5 h6 h7 hr)

/-- Two events fire in the other order than they were registered, while a third is registered. -/
example : (runAll step St.init
    [.register 5 50, .register 6 60, .wait 0, .body, .fire 6, .register 7 70, .wait 6, .fire 5, .body, .wait 5,
      .body, .wait 0, .body, .fire 7]).map (fun s => (s.pend, s.jobs, s.sched, s.closed, s.ready)) =
    .ok ([some 0, some 7], [70], [(6, 60), (5, 50)], [6, 5], [7]) := by decide +kernel
/-- The last one of three fires first, then the first. -/
example : (runAll step St.init
    [.register 5 50, .register 6 60, .register 7 70, .wait 0, .body, .fire 7, .wait 7, .body, .fire 5, .wait 5,
      .body]).map (fun s => (s.pend, s.jobs, s.sched)) =
    .ok ([some 0, some 6], [60], [(7, 70), (5, 50)]) := by decide +kernel

/-! ### Placement -/

theorem core_eq (h i : Nat) (hh : h ≤ 65) (hi : i < h - 1) :
    core h i = if i < h / 2 then i * 2 else (i - h / 2) * 2 + 1 := by
  unfold core wmul wadd wsub
  split
  · rw [Nat.mod_eq_of_lt (by omega)]
  · have : (i + (2 ^ 64 - h / 2 % 2 ^ 64)) % 2 ^ 64 = i - h / 2 := by omega
    rw [this]; omega

/-- C59. On every machine with 2 to 65 hardware threads the pool has one worker less than that, all are
pinned to existing cores, and no two to the same. -/
theorem C59_placement (h : Nat) (h2 : 2 ≤ h) (h65 : h ≤ 65) :
    ∃ cs, placement h = .ok cs ∧ cs.length = h - 1 ∧ cs.Nodup ∧ ∀ c ∈ cs, c < h := by
  have hw : wsub h 1 = h - 1 := by unfold wsub; omega
  have hc : ∀ c ∈ (List.range (h - 1)).map (core h), c < h := by
    intro c hc
    obtain ⟨i, hi, rfl⟩ := List.mem_map.mp hc
    have hi := List.mem_range.mp hi
    rw [core_eq h i h65 hi]
    split <;> omega
  refine ⟨(List.range (h - 1)).map (core h), ?_, by simp, ?_, hc⟩
  · unfold placement
    rw [hw]; dsimp only
    rw [if_pos (by omega), if_pos hc]
  · refine List.Pairwise.map _ (R := fun a b => a < h - 1 ∧ b < h - 1 ∧ a ≠ b) ?_ ?_
    · rintro a b ⟨ha, hb, hab⟩ c
      rw [core_eq h a h65 ha, core_eq h b h65 hb] at c
      split at c <;> split at c <;> omega
    · have := List.nodup_range (n := h - 1)
      refine List.Pairwise.imp_of_mem ?_ this
      intro a b ha hb hab
      exact ⟨List.mem_range.mp ha, List.mem_range.mp hb, hab⟩

/-- C59, the other machines: with more than 65 hardware threads the constructor stops the program. -/
theorem C59_many (h : Nat) (h66 : 66 ≤ h) (hh : h < 2 ^ 64) : placement h = .error .die := by
  have hw : wsub h 1 = h - 1 := by unfold wsub; omega
  unfold placement
  rw [hw]; dsimp only
  rw [if_neg (by omega)]

example : placement 8 = .ok [0, 2, 4, 6, 1, 3, 5] := by decide +kernel
example : placement 5 = .ok [0, 2, 1, 3] := by decide +kernel
example : placement 2 = .ok [0] := by decide +kernel

end Rpp.Props
