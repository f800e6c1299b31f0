import Verif.Proof.ProfileSync

/-!
# Lemmas on threads that use the profiler: schedules
-/

namespace Rpp.PSync

/-- The goal `∃ s', .ok x = .ok s' ∧ Inv n s'` for a state `x` given by updates. -/
local macro "keep" : tactic => `(tactic| (
  refine ⟨_, rfl, ?_⟩
  constructor <;> simp only [upd_thr, upd_lock, upd_table, leave] <;> grind [hasTable, hasFrames, reads, writes, Rpp.PSync.todo, iterating, ending]))

theorem Inv.call {n : Nat} {s : St} (h : Inv n s) {t : Nat} {op : Op} (hp : (s.thr t).pc = .idle) (ht : t < n)
    (hb : op = .begin → (s.thr t).during = false)
    (hf : op = .finish → (s.thr t).registered = true ∧ (s.thr t).during = true) : ∃ s', call s t op = .ok s' ∧ Inv n s' := by
  have h0 := h
  obtain ⟨h1,h2,h3,h3',h4,h5,h6,h7,h8,h9,h10,h11,h12,h13⟩ := h
  unfold PSync.call
  cases op with
  | alloc => dsimp only; keep
  | finish =>
    dsimp only
    rw [if_pos (hf rfl)]
    keep
  | begin =>
    dsimp only
    split
    · rename_i hr
      exact h0.step_afterReady ht hp hr hb (.inl rfl)
    · keep
  | scope =>
    dsimp only
    split
    · rename_i hr
      exact h0.step_afterReady ht hp hr hb (.inr rfl)
    · keep

theorem Inv.step {n : Nat} {s : St} (h : Inv n s) {e : Ev} (ha : Allowed n s e) : ∃ s', step s e = .ok s' ∧ Inv n s' := by
  cases e with
  | go t => exact h.go t
  | call t op =>
    unfold PSync.step
    dsimp only
    split
    · rename_i hp
      exact h.call hp ha.1 (ha.2 hp).1 (ha.2 hp).2
    · exact ⟨s, rfl, h⟩
  | iterate t cb =>
    unfold PSync.step
    obtain ⟨hb, he⟩ := ha
    dsimp only
    split
    · obtain ⟨h1,h2,h3,h3',h4,h5,h6,h7,h8,h9,h10,h11,h12,h13⟩ := h
      keep
    · exact ⟨s, rfl, h⟩
  | exit t =>
    unfold PSync.step
    obtain ⟨hb, hd, hi⟩ := ha
    dsimp only
    split
    · rename_i hp
      obtain ⟨h1,h2,h3,h3',h4,h5,h6,h7,h8,h9,h10,h11,h12,h13⟩ := h
      have hr : (s.thr t).readers = 0 := by
        cases hl : (s.thr t).lock with
        | none => exact h3 t hl
        | some i =>
          refine h3' t i hl fun hh => ?_
          have := hi i
          cases hx : (s.thr i).pc <;> simp [hx, reads, iterating] at hh this
      have hw : (s.thr t).writing = false := by grind [writes]
      unfold startWrite
      rw [if_neg (by simp [hr, hw])]
      keep
    · exact ⟨s, rfl, h⟩

theorem Inv.run {n : Nat} : ∀ {es : List Ev} {s : St}, Inv n s → Disciplined n s es →
    ∃ s', runAll PSync.step s es = .ok s' ∧ Inv n s'
  | [], s, h, _ => ⟨s, rfl, h⟩
  | e :: r, s, h, hd => by
    obtain ⟨s1, h1, h2⟩ := h.step hd.1
    unfold runAll
    rw [h1]
    exact h2.run (hd.2 s1 h1)

end Rpp.PSync
