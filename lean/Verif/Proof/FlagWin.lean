import Verif.Model.FlagWin
import Verif.Proof.Flag

namespace Rpp
namespace FlagWin
open Flag (Pc wakeUp)

/-- The same situation on Linux. -/
def abs (s : St) : Flag.St := ⟨decide (s.value ≠ 0), s.thr, s.set, s.completed, s.returned, s.readies⟩

def absE : Ev → Flag.Ev
  | .block t => .block t
  | .signal t => .signal t
  | .ready t => .ready t
  | .go t => .go t
  | .spurious t => .spurious t

theorem calm (e : Ev) : Flag.Calm (absE e) := by cases e <;> trivial

theorem step_ok (s : St) (e : Ev) : ∃ s', step s e = .ok s' := by
  cases e <;> unfold step <;> dsimp only <;> repeat' split
  all_goals exact ⟨_, rfl⟩

theorem run_ok : ∀ (es : List Ev) (s : St), ∃ s', runAll step s es = .ok s'
  | [], s => ⟨s, rfl⟩
  | e :: r, s => by
    obtain ⟨s1, h⟩ := step_ok s e
    unfold runAll
    rw [h]
    exact run_ok r s1

/-- The word holds the number of signals modulo 2^16. -/
theorem step_value {s s' : St} {e : Ev} (h : step s e = .ok s') (hv : s.value = BitVec.ofNat 16 s.set) :
    s'.value = BitVec.ofNat 16 s'.set ∧ s'.set ≤ s.set + if isSignal e then 1 else 0 := by
  cases e <;> unfold step at h <;> dsimp only at h <;> (repeat' split at h) <;> cases h <;>
    dsimp only [isSignal] <;> refine ⟨?_, by simp⟩ <;> first | exact hv | skip
  rw [hv, BitVec.ofNat_add]; rfl

theorem run_value : ∀ (es : List Ev) (s s' : St), runAll step s es = .ok s' → s.value = BitVec.ofNat 16 s.set →
    s'.value = BitVec.ofNat 16 s'.set ∧ s'.set ≤ s.set + es.countP isSignal
  | [], s, s', h, hv => by cases h; exact ⟨hv, by simp⟩
  | e :: r, s, s', h, hv => by
    unfold runAll at h
    obtain ⟨s1, h1⟩ := step_ok s e
    rw [h1] at h
    obtain ⟨h2, h3⟩ := step_value h1 hv
    obtain ⟨h4, h5⟩ := run_value r s1 s' h h2
    refine ⟨h4, ?_⟩
    rw [List.countP_cons]
    split at h3 <;> simp_all <;> omega

/-- Unless the counter overflows, each step is a step on Linux. -/
theorem step_sim {s s' : St} {e : Ev} (h : step s e = .ok s') (hv : s.value = BitVec.ofNat 16 s.set)
    (hs : s'.set < 2 ^ 16) : Flag.step (abs s) (absE e) = .ok (abs s') := by
  have hne : isSignal e = true → s.value + 1 ≠ 0 ∨ s' = s := by
    intro hi
    cases e with
    | signal t =>
      unfold step at h; dsimp only at h
      split at h <;> cases h
      · left
        dsimp only at hs
        rw [hv]
        intro c
        have := congrArg BitVec.toNat c
        simp at this
        omega
      · right; rfl
    | _ => cases hi
  cases e with
  | block t =>
    unfold step at h; unfold Flag.step; dsimp only [absE, abs] at *
    split at h <;> cases h <;> rename_i ht <;> simp [ht]
  | signal t =>
    unfold step at h; unfold Flag.step; dsimp only [absE, abs] at *
    split at h <;> cases h <;> rename_i ht
    · rcases hne rfl with h1 | h1
      · simp [ht]
        exact h1
      · have := congrArg St.set h1
        simp at this
    · simp [ht]
  | ready t =>
    unfold step at h; dsimp only at h
    split at h <;> cases h <;> rename_i ht
    · exact if_pos ⟨ht.1, decide_eq_true ht.2⟩
    · exact if_neg (fun c => ht ⟨c.1, of_decide_eq_true c.2⟩)
  | spurious t =>
    unfold step at h; unfold Flag.step; dsimp only [absE, abs] at *
    split at h <;> cases h <;> rename_i ht <;> simp [ht]
  | go t =>
    unfold step at h; unfold Flag.step; dsimp only [absE, abs] at *
    split at h
    · rename_i ht
      rw [ht]; dsimp only
      split at h <;> cases h <;> rename_i hx
      · exact if_pos (decide_eq_true hx)
      · exact if_neg (fun c => hx (of_decide_eq_true c))
    · rename_i ht
      rw [ht]; dsimp only
      cases h
      by_cases hx : s.value ≠ 0 <;> simp [hx]
    · rename_i ht
      rw [ht]
      cases h
      rfl
    · rename_i h1 h2 h3
      cases h
      split <;> simp_all

theorem run_sim : ∀ (es : List Ev) (s s' : St), runAll step s es = .ok s' → s.value = BitVec.ofNat 16 s.set →
    s.set + es.countP isSignal < 2 ^ 16 → runAll Flag.step (abs s) (es.map absE) = .ok (abs s')
  | [], s, s', h, _, _ => by cases h; rfl
  | e :: r, s, s', h, hv, hc => by
    unfold runAll at h
    obtain ⟨s1, h1⟩ := step_ok s e
    rw [h1] at h
    obtain ⟨h2, h3⟩ := step_value h1 hv
    rw [List.countP_cons] at hc
    have h4 : s1.set + r.countP isSignal < 2 ^ 16 := by
      split at h3 <;> simp_all <;> omega
    rw [List.map_cons]
    unfold runAll
    rw [step_sim h1 hv (by omega)]
    exact run_sim r s1 s' h h2 h4

theorem init_sim {n : Nat} {es : List Ev} {s : St} (h : runAll step (St.init n) es = .ok s)
    (hc : es.countP isSignal < 2 ^ 16) : runAll Flag.step (Flag.St.init n) (es.map absE) = .ok (abs s) := by
  have := run_sim es (St.init n) s h rfl (by simpa [St.init] using hc)
  exact this

/-- One thread signalling `k` times. -/
theorem many_signals (l : List Pc) : ∀ (k : Nat) (s : St), s.thr = Pc.idle :: l → (∀ p ∈ l, p = Pc.idle) →
    s.value = BitVec.ofNat 16 s.set → ∃ s', runAll step s (List.replicate k [Ev.signal 0, Ev.go 0]).flatten = .ok s' ∧
      s'.thr = Pc.idle :: l ∧ s'.set = s.set + k ∧ s'.completed = s.completed + k ∧
      s'.value = BitVec.ofNat 16 s'.set ∧ s'.returned = s.returned ∧ s'.readies = s.readies
  | 0, s, h, _, hv => ⟨s, rfl, h, rfl, rfl, hv, rfl, rfl⟩
  | k + 1, s, h, hl, hv => by
    have hm : l.map wakeUp = l := by
      conv => rhs; rw [← List.map_id l]
      apply List.map_congr_left
      intro p hp
      rw [hl p hp]; rfl
    have e1 : step s (.signal 0) = .ok { s with value := s.value + 1, set := s.set + 1, thr := Pc.wake :: l } := by
      unfold step; dsimp only; rw [h]; simp
    have e2 : step { s with value := s.value + 1, set := s.set + 1, thr := Pc.wake :: l } (.go 0) = .ok
        { s with value := s.value + 1, set := s.set + 1, completed := s.completed + 1, thr := Pc.idle :: l } := by
      unfold step; dsimp only
      simp [wakeUp, hm]
    obtain ⟨s', h1, h2, h3, h4, h5, h6, h7⟩ := many_signals l k
      { s with value := s.value + 1, set := s.set + 1, completed := s.completed + 1, thr := Pc.idle :: l } rfl hl
      (by dsimp only; rw [hv, BitVec.ofNat_add]; rfl)
    refine ⟨s', ?_, h2, ?_, ?_, h5, h6, h7⟩
    · rw [List.replicate_succ, List.flatten_cons]
      show runAll step s (Ev.signal 0 :: Ev.go 0 :: _) = _
      unfold runAll; rw [e1]; dsimp only
      unfold runAll; rw [e2]
      exact h1
    · rw [h3]; dsimp only; omega
    · rw [h4]; dsimp only; omega

end FlagWin
end Rpp
