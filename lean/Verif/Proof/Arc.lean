import Verif.Model.Arc
import Verif.Proof.Sched

namespace Rpp
namespace Arc

/-- Everything about the value and the threads, given the number of handles. -/
inductive Phase (s : St) : Prop where
  | live : 0 < s.handles → s.mem = true → s.alive = true → s.destructs = 0 → s.frees = 0 →
      (∀ (t : Nat) (r : Thr), s.thr[t]? = some r → r.pc = .idle) → Phase s
  | destruct (i : Nat) (h : Nat) : s.handles = 0 → s.mem = true → s.alive = true → s.destructs = 0 →
      s.frees = 0 → s.thr[i]? = some ⟨h, .destruct⟩ →
      (∀ (t : Nat) (r : Thr), t ≠ i → s.thr[t]? = some r → r.pc = .idle) → Phase s
  | free (i : Nat) (h : Nat) : s.handles = 0 → s.mem = true → s.alive = false → s.destructs = 1 →
      s.frees = 0 → s.thr[i]? = some ⟨h, .free⟩ →
      (∀ (t : Nat) (r : Thr), t ≠ i → s.thr[t]? = some r → r.pc = .idle) → Phase s
  | gone : s.handles = 0 → s.mem = false → s.alive = false → s.destructs = 1 → s.frees = 1 →
      (∀ (t : Nat) (r : Thr), s.thr[t]? = some r → r.pc = .idle) → Phase s

/-- The invariant. -/
def Inv (s : St) : Prop := s.refs = s.handles ∧ Phase s

theorem Inv.idle {s : St} (h : Inv s) {t n : Nat} (ht : s.thr[t]? = some ⟨n + 1, .idle⟩) :
    0 < s.handles ∧ s.mem = true ∧ s.alive = true ∧ s.destructs = 0 ∧ s.frees = 0 ∧
      ∀ (t : Nat) (r : Thr), s.thr[t]? = some r → r.pc = .idle := by
  have := le_sum Thr.handles s.thr t _ ht
  have hp : 0 < s.handles := by unfold St.handles; simp only at this; omega
  cases h.2 with
  | live a b c d e f => exact ⟨a, b, c, d, e, f⟩
  | destruct _ _ a => omega
  | free _ _ a => omega
  | gone a => omega

theorem idle_set {l : List Thr} (h : ∀ (t : Nat) (r : Thr), l[t]? = some r → r.pc = .idle) {t : Nat} {x : Thr}
    (ht : l[t]? = some x) {a : Thr} (ha : a.pc = .idle) :
    ∀ (u : Nat) (r : Thr), (l.set t a)[u]? = some r → r.pc = .idle := by
  intro u r hu
  rw [getElem?_set_of ht] at hu
  split at hu
  · injection hu with hu; subst hu; exact ha
  · exact h u r hu

theorem step_inv (s : St) (e : Ev) (h : Inv s) : ∃ s', step s e = .ok s' ∧ Inv s' := by
  cases e with
  | dup t =>
    unfold step
    dsimp only
    split
    · rename_i n ht
      obtain ⟨h1, h2, h3, h4, h5, h6⟩ := h.idle ht
      rw [if_pos h2]
      have hs := sum_set Thr.handles s.thr t ⟨n + 2, .idle⟩ _ ht
      refine ⟨_, rfl, ?_, .live ?_ h2 h3 h4 h5 (idle_set h6 ht rfl)⟩
      · have := h.1; unfold St.handles at *; simp only at *; omega
      · unfold St.handles at *; simp only at *; omega
    · exact ⟨s, rfl, h⟩
  | drop t =>
    unfold step
    dsimp only
    split
    · rename_i n ht
      obtain ⟨h1, h2, h3, h4, h5, h6⟩ := h.idle ht
      rw [if_pos h2]
      have hr := h.1
      have hs := sum_set Thr.handles s.thr t ⟨n, if s.refs - 1 = 0 then .destruct else .idle⟩ _ ht
      refine ⟨_, rfl, ?_, ?_⟩
      · unfold St.handles at *; simp only at *; omega
      · by_cases h0 : s.refs - 1 = 0
        · rw [if_pos h0] at hs ⊢
          refine .destruct t n ?_ h2 h3 h4 h5 ?_ ?_
          · unfold St.handles at *; simp only at *; omega
          · simp only; rw [getElem?_set_of ht, if_pos rfl]
          · intro u r hu hr'
            simp only at hr'
            rw [getElem?_set_of ht, if_neg hu] at hr'
            exact h6 u r hr'
        · rw [if_neg h0] at hs ⊢
          refine .live ?_ h2 h3 h4 h5 (idle_set h6 ht rfl)
          unfold St.handles at *; simp only at *; omega
    · exact ⟨s, rfl, h⟩
  | give t u =>
    unfold step
    dsimp only
    split
    · rename_i n r ht hu
      by_cases e : t = u
      · rw [if_pos e]; exact ⟨s, rfl, h⟩
      · rw [if_neg e]
        obtain ⟨h1, h2, h3, h4, h5, h6⟩ := h.idle ht
        have hu' : (s.thr.set t ⟨n, .idle⟩)[u]? = some r := by
          rw [getElem?_set_of ht, if_neg (Ne.symm e)]; exact hu
        have hs1 := sum_set Thr.handles s.thr t ⟨n, .idle⟩ _ ht
        have hs2 := sum_set Thr.handles _ u ⟨r.handles + 1, r.pc⟩ _ hu'
        have hr := h.1
        refine ⟨_, rfl, ?_, .live ?_ h2 h3 h4 h5 (idle_set (idle_set h6 ht rfl) hu' (h6 u r hu))⟩
        · unfold St.handles at *; simp only at *; omega
        · unfold St.handles at *; simp only at *; omega
    · exact ⟨s, rfl, h⟩
  | use t =>
    unfold step
    dsimp only
    split
    · rename_i n ht
      obtain ⟨h1, h2, h3, _⟩ := h.idle ht
      rw [if_pos ⟨h2, h3⟩]
      exact ⟨s, rfl, h⟩
    · exact ⟨s, rfl, h⟩
  | go t =>
    unfold step
    dsimp only
    split
    · rename_i n ht
      cases h.2 with
      | live _ _ _ _ _ f => have := f _ _ ht; cases this
      | destruct i m a b c d f g k =>
        have e : t = i := by
          by_cases e : t = i
          · exact e
          · have := k t _ e ht; cases this
        subst e
        rw [if_pos ⟨b, c⟩]
        have hs := sum_set Thr.handles s.thr t ⟨n, .free⟩ _ ht
        have hr := h.1
        refine ⟨_, rfl, ?_, .free t n ?_ b rfl (by simp only; omega) f ?_ ?_⟩
        · unfold St.handles at *; simp only at *; omega
        · unfold St.handles at *; simp only at *; omega
        · simp only; rw [getElem?_set_of ht, if_pos rfl]
        · intro u r hu hr'
          simp only at hr'
          rw [getElem?_set_of ht, if_neg hu] at hr'
          exact k u r hu hr'
      | free i m a b c d f g k =>
        by_cases e : t = i
        · subst e; rw [g] at ht; cases ht
        · have := k t _ e ht; cases this
      | gone _ _ _ _ _ f => have := f _ _ ht; cases this
    · rename_i n ht
      cases h.2 with
      | live _ _ _ _ _ f => have := f _ _ ht; cases this
      | destruct i m a b c d f g k =>
        by_cases e : t = i
        · subst e; rw [g] at ht; cases ht
        · have := k t _ e ht; cases this
      | free i m a b c d f g k =>
        have e : t = i := by
          by_cases e : t = i
          · exact e
          · have := k t _ e ht; cases this
        subst e
        rw [if_pos b]
        have hs := sum_set Thr.handles s.thr t ⟨n, .idle⟩ _ ht
        have hr := h.1
        refine ⟨_, rfl, ?_, .gone ?_ rfl c d (by simp only; omega) ?_⟩
        · unfold St.handles at *; simp only at *; omega
        · unfold St.handles at *; simp only at *; omega
        · intro u r hu
          simp only at hu
          rw [getElem?_set_of ht] at hu
          split at hu
          · injection hu with hu; subst hu; rfl
          · exact k u r (by assumption) hu
      | gone _ _ _ _ _ f => have := f _ _ ht; cases this
    · exact ⟨s, rfl, h⟩

theorem init_inv (n : Nat) : Inv (St.init n) := by
  have hs : (St.init n).handles = 1 := by simp [St.handles, St.init]
  refine ⟨by rw [hs]; rfl, .live (by omega) rfl rfl rfl rfl ?_⟩
  intro t r ht
  have := List.mem_of_getElem? ht
  simp only [St.init, List.mem_cons, List.mem_replicate] at this
  rcases this with rfl | ⟨_, rfl⟩ <;> rfl

theorem Inv.facts {s : St} (h : Inv s) :
    (0 < s.handles → s.alive = true ∧ s.mem = true ∧ s.destructs = 0 ∧ s.frees = 0) ∧
      s.frees ≤ s.destructs ∧ s.destructs ≤ 1 ∧
      (s.handles = 0 → (∀ t ∈ s.thr, t.pc = .idle) → s.destructs = 1 ∧ s.frees = 1) := by
  cases h.2 with
  | live a b c d e f => exact ⟨fun _ => ⟨c, b, d, e⟩, by omega, by omega, fun h => by omega⟩
  | destruct i m a b c d e f g =>
    refine ⟨fun _ => by omega, by omega, by omega, fun _ h => ?_⟩
    have := h _ (List.mem_of_getElem? f)
    cases this
  | free i m a b c d e f g =>
    refine ⟨fun _ => by omega, by omega, by omega, fun _ h => ?_⟩
    have := h _ (List.mem_of_getElem? f)
    cases this
  | gone a b c d e f => exact ⟨fun _ => by omega, by omega, by omega, fun _ _ => ⟨d, e⟩⟩

/-- No handle is left, and thread `t` is the one that destroys the value, or it is destroyed. -/
def Last (t : Nat) (s : St) : Prop :=
  Inv s ∧ s.handles = 0 ∧ ∀ u r, s.thr[u]? = some r → r.pc ≠ Pc.idle → u = t

theorem no_handle {s : St} (h : s.handles = 0) {t n : Nat} {p : Pc} (ht : s.thr[t]? = some ⟨n + 1, p⟩) :
    False := by
  have := le_sum Thr.handles s.thr t _ ht
  unfold St.handles at h; simp only at this; omega

theorem last_step (t : Nat) (s : St) (e : Ev) (h : Last t s) :
    ∃ s', step s e = .ok s' ∧ Last t s' ∧
      (1 - s'.destructs) + (1 - s'.frees) ≤ (1 - s.destructs) + (1 - s.frees) - (if e == .go t then 1 else 0) := by
  obtain ⟨hi, hz, hl⟩ := h
  cases e with
  | dup u =>
    refine ⟨s, ?_, ⟨hi, hz, hl⟩, by simp⟩
    unfold step; dsimp only
    split
    · exact (no_handle hz (by assumption)).elim
    · rfl
  | drop u =>
    refine ⟨s, ?_, ⟨hi, hz, hl⟩, by simp⟩
    unfold step; dsimp only
    split
    · exact (no_handle hz (by assumption)).elim
    · rfl
  | give u v =>
    refine ⟨s, ?_, ⟨hi, hz, hl⟩, by simp⟩
    unfold step; dsimp only
    split
    · exact (no_handle hz (by assumption)).elim
    · rfl
  | use u =>
    refine ⟨s, ?_, ⟨hi, hz, hl⟩, by simp⟩
    unfold step; dsimp only
    split
    · exact (no_handle hz (by assumption)).elim
    · rfl
  | go u =>
    obtain ⟨s', h1, h2⟩ := step_inv s (.go u) hi
    refine ⟨s', h1, ?_⟩
    unfold step at h1; dsimp only at h1
    split at h1
    · rename_i n hu
      have hut := hl u _ hu (by simp)
      subst hut
      split at h1
      · cases h1
        have hs := sum_set Thr.handles s.thr u ⟨n, .free⟩ _ hu
        refine ⟨⟨h2, ?_, ?_⟩, ?_⟩
        · unfold St.handles at *; simp only at *; omega
        · intro v r hv hne
          simp only at hv
          rw [getElem?_set_of hu] at hv
          split at hv
          · assumption
          · exact hl v r hv hne
        · rw [if_pos (by simp)]
          have hd : s.destructs = 0 := by
            cases hi.2 with
            | live _ _ _ _ _ f => have := f _ _ hu; cases this
            | destruct i m a b c d f g k => exact d
            | free i m a b c d f g k =>
              by_cases e : u = i
              · subst e; rw [g] at hu; cases hu
              · have := k u _ e hu; cases this
            | gone _ _ _ _ _ f => have := f _ _ hu; cases this
          simp only; omega
      · cases h1
    · rename_i n hu
      have hut := hl u _ hu (by simp)
      subst hut
      split at h1
      · cases h1
        have hs := sum_set Thr.handles s.thr u ⟨n, .idle⟩ _ hu
        refine ⟨⟨h2, ?_, ?_⟩, ?_⟩
        · unfold St.handles at *; simp only at *; omega
        · intro v r hv hne
          simp only at hv
          rw [getElem?_set_of hu] at hv
          split at hv
          · assumption
          · exact hl v r hv hne
        · rw [if_pos (by simp)]
          have hd : s.frees = 0 := by
            cases hi.2 with
            | live _ _ _ _ _ f => have := f _ _ hu; cases this
            | destruct i m a b c d f g k => exact f
            | free i m a b c d f g k => exact f
            | gone _ _ _ _ _ f => have := f _ _ hu; cases this
          simp only; omega
      · cases h1
    · rename_i h3 h4
      cases h1
      refine ⟨⟨hi, hz, hl⟩, ?_⟩
      by_cases e : u = t
      · subst e
        cases hi.2 with
        | live a => omega
        | destruct i m a b c d f g k =>
          have := hl i _ g (by simp)
          subst this
          exact absurd g (h3 _)
        | free i m a b c d f g k =>
          have := hl i _ g (by simp)
          subst this
          exact absurd g (h4 _)
        | gone a b c d e f => rw [d, e]; simp
      · have hb : (Ev.go u == Ev.go t) = false := by simp [e]
        rw [hb]; simp

end Arc
end Rpp
