import Verif.Spec.Joins

/-! # Proofs about thread ids and joins -/

namespace Rpp.Joins

open Rpp.Joins.Spec

/-- Threads the system knows have different handles and numbers. -/
def Uniq (s : State) : Prop :=
  ∀ (i j : Nat) (a b : Th), s[i]? = some a → s[j]? = some b → i ≠ j → a.inUse = true → b.inUse = true → a.handle ≠ b.handle ∧ a.tid ≠ b.tid

/-- Handles and numbers stay, and a thread forgotten is not known again. -/
def Sub (s s' : State) : Prop :=
  ∀ (i : Nat) (b' : Th), s'[i]? = some b' → ∃ b : Th, s[i]? = some b ∧ b'.handle = b.handle ∧ b'.tid = b.tid ∧ (b'.inUse = true → b.inUse = true)

theorem Uniq.sub {s s' : State} (h : Uniq s) (hs : Sub s s') : Uniq s' := by
  intro i j a b ha hb hij hua hub
  obtain ⟨a0, ha0, e1, e2, e3⟩ := hs i a ha
  obtain ⟨b0, hb0, f1, f2, f3⟩ := hs j b hb
  rw [e1, e2, f1, f2]
  exact h i j a0 b0 ha0 hb0 hij (e3 hua) (f3 hub)

theorem sub_set {s : State} {t : Nat} {a a' : Th} (ha : s[t]? = some a) (h1 : a'.handle = a.handle) (h2 : a'.tid = a.tid)
    (h3 : a'.inUse = true → a.inUse = true) : Sub s (s.set t a') := by
  intro i b' hb
  rw [List.getElem?_set] at hb
  split at hb
  · rename_i e
    subst e
    split at hb
    · cases hb
      exact ⟨a, ha, h1, h2, h3⟩
    · cases hb
  · exact ⟨b', hb, rfl, rfl, fun h => h⟩

theorem Sub.trans {a b c : State} (h : Sub a b) (g : Sub b c) : Sub a c := by
  intro i x hx
  obtain ⟨y, hy, e1, e2, e3⟩ := g i x hx
  obtain ⟨z, hz, f1, f2, f3⟩ := h i y hy
  exact ⟨z, hz, e1.trans f1, e2.trans f2, fun h => f3 (e3 h)⟩

theorem does_iff {s : State} {t : Nat} {x : Stage} : does s t x = true ↔ ∃ a, s[t]? = some a ∧ a.stage = x := by
  unfold does
  rw [decide_eq_true_iff]
  cases s[t]? <;> simp

/-- What a step can be. -/
theorem step_cases {p : Platform} {s s' : State} {e : Ev} (h : step p s e = some (.ok s')) :
    (∃ t hd i, e = .start t hd i ∧ s' = s ++ [⟨hd, i, .running, true⟩] ∧ does s t .running = true ∧
      (∀ x ∈ s, x.inUse = true → x.handle ≠ hd ∧ x.tid ≠ i) ∧ (p = .mac → ∀ x ∈ s, x.tid ≠ i)) ∨
    (∃ t u a b, e = .join t u ∧ s[t]? = some a ∧ s[u]? = some b ∧ a.stage = .running ∧ s' = s.set t { a with stage := .waiting u }) ∨
    (∃ t u a b, e = .wake t ∧ s[t]? = some a ∧ a.stage = .waiting u ∧ s[u]? = some b ∧ b.stage = .finished ∧ t ≠ u ∧
      s' = (s.set u { b with held := false }).set t { a with stage := .running }) ∨
    (∃ t u b, e = .detach t u ∧ s[u]? = some b ∧ s' = s.set u { b with held := false }) ∨
    (∃ t a, e = .exit t ∧ s[t]? = some a ∧ a.stage = .running ∧ s' = s.set t { a with stage := .finished }) := by
  cases e with
  | start t hd i =>
    simp only [step] at h
    split at h
    · rename_i hc
      cases h
      simp only [Bool.and_eq_true, List.all_eq_true, Bool.or_eq_true, Bool.not_eq_true', decide_eq_true_iff] at hc
      obtain ⟨⟨⟨h1, h2⟩, h3⟩, h4⟩ := hc
      refine .inl ⟨t, hd, i, rfl, rfl, h1, fun x hx hu => ?_, fun hp x hx => ?_⟩
      · rcases h3 x hx with h | h
        · rw [hu] at h; cases h
        · exact h
      · rcases h4 with h | h
        · exact absurd hp h
        · exact h x hx
    · cases h
  | join t u =>
    simp only [step] at h
    split at h
    · rename_i a b ha hb
      split at h
      · rename_i hc
        split at h
        · cases h
        · cases h
          simp only [Bool.and_eq_true] at hc
          obtain ⟨a', ha', hs⟩ := does_iff.1 hc.1.1
          rw [ha] at ha'
          cases ha'
          exact .inr (.inl ⟨t, u, a, b, rfl, ha, hb, hs, rfl⟩)
      · cases h
    · cases h
  | wake t =>
    simp only [step] at h
    split at h
    · rename_i a ha
      split at h
      · rename_i u hw
        split at h
        · rename_i b hb
          split at h
          · rename_i hf
            cases h
            have htu : t ≠ u := by
              rintro rfl
              rw [ha] at hb
              cases hb
              rw [hw] at hf
              cases hf
            refine .inr (.inr (.inl ⟨t, u, a, b, rfl, ha, hw, hb, hf, htu, ?_⟩))
            apply List.ext_getElem?
            intro k
            rw [List.getElem?_modify, List.getElem?_set, List.getElem?_set, List.getElem?_set]
            have hl : t < s.length := (List.getElem?_eq_some_iff.1 ha).1
            by_cases hk : t = k
            · subst hk
              obtain ⟨_, he⟩ := List.getElem?_eq_some_iff.1 ha
              simp [Ne.symm htu, hl, he]
            · simp [hk]
          · cases h
        · cases h
      · cases h
    · cases h
  | detach t u =>
    simp only [step] at h
    split at h
    · rename_i b hb
      split at h
      · cases h
        exact .inr (.inr (.inr (.inl ⟨t, u, b, rfl, hb, rfl⟩)))
      · cases h
    · cases h
  | exit t =>
    simp only [step] at h
    split at h
    · rename_i a ha
      split at h
      · rename_i hc
        cases h
        obtain ⟨a', ha', hs⟩ := does_iff.1 hc
        rw [ha] at ha'
        cases ha'
        exact .inr (.inr (.inr (.inr ⟨t, a, rfl, ha, hs, rfl⟩)))
      · cases h
    · cases h

/-- Steps that start no thread. -/
theorem step_sub {p : Platform} {s s' : State} {e : Ev} (h : step p s e = some (.ok s')) :
    (∃ t hd i, e = .start t hd i ∧ s' = s ++ [⟨hd, i, .running, true⟩] ∧ 
      (∀ x ∈ s, x.inUse = true → x.handle ≠ hd ∧ x.tid ≠ i) ∧ (p = .mac → ∀ x ∈ s, x.tid ≠ i)) ∨ Sub s s' := by
  rcases step_cases h with ⟨t, hd, i, rfl, rfl, _, h1, h2⟩ | ⟨t, u, a, b, rfl, ha, hb, hs, rfl⟩ | ⟨t, u, a, b, rfl, ha, hw, hb, hf, htu, rfl⟩ |
    ⟨t, u, b, rfl, hb, rfl⟩ | ⟨t, a, rfl, ha, hs, rfl⟩
  · exact .inl ⟨t, hd, i, rfl, rfl, h1, h2⟩
  · exact .inr (sub_set ha rfl rfl (by simp [Th.inUse, hs]))
  · refine .inr ((sub_set (a' := { b with held := false }) hb rfl rfl (by simp +contextual [Th.inUse])).trans (sub_set (a := a) ?_ rfl rfl (by simp [Th.inUse, hw])))
    rw [List.getElem?_set, if_neg (Ne.symm htu)]
    exact ha
  · exact .inr (sub_set hb rfl rfl (by simp +contextual [Th.inUse]))
  · exact .inr (sub_set ha rfl rfl (by simp +contextual [Th.inUse]))

theorem getElem?_concat {s : State} {x : Th} {i : Nat} {a : Th} (h : (s ++ [x])[i]? = some a) :
    s[i]? = some a ∨ (i = s.length ∧ a = x) := by
  rcases Nat.lt_trichotomy i s.length with hi | hi | hi
  · rw [List.getElem?_append_left hi] at h
    exact .inl h
  · subst hi
    simp at h
    exact .inr ⟨rfl, h.symm⟩
  · rw [List.getElem?_eq_none (by simp; omega)] at h
    cases h

theorem uniq_step {p : Platform} {s s' : State} {e : Ev} (hu : Uniq s) (h : step p s e = some (.ok s')) : Uniq s' := by
  rcases step_sub h with ⟨t, hd, i, rfl, rfl, h1, _⟩ | hs
  · intro m n a b ha hb hmn hua hub
    rcases getElem?_concat ha with ha | ⟨hm, rfl⟩ <;> rcases getElem?_concat hb with hb | ⟨hn, rfl⟩
    · exact hu m n a b ha hb hmn hua hub
    · exact h1 a (List.mem_of_getElem? ha) hua
    · have := h1 b (List.mem_of_getElem? hb) hub
      exact ⟨Ne.symm this.1, Ne.symm this.2⟩
    · omega
  · exact hu.sub hs

theorem run_inv {p : Platform} {P : State → Prop} (hstep : ∀ s s' e, P s → step p s e = some (.ok s') → P s') :
    ∀ (es : List Ev) (s s' : State), P s → run p s es = some (.ok s') → P s'
  | [], s, s', h, hr => by cases hr; exact h
  | e :: es, s, s', h, hr => by
    simp only [run] at hr
    split at hr
    · rename_i s1 h1
      exact run_inv hstep es s1 s' (hstep s s1 e h h1) hr
    · cases hr
    · cases hr

theorem init_get {hd id : Nat} {i : Nat} {a : Th} (h : (init hd id)[i]? = some a) : i = 0 ∧ a = ⟨hd, id, .running, false⟩ := by
  cases i with
  | zero => simp [init] at h; exact ⟨rfl, h.symm⟩
  | succ i => simp [init] at h

theorem reach_uniq {p : Platform} {s : State} (h : Reach p s) : Uniq s := by
  obtain ⟨hd, i, es, h⟩ := h
  refine run_inv (fun s s' e => uniq_step) es _ s ?_ h
  intro m n a b ha hb hmn
  have := (init_get ha).1
  have := (init_get hb).1
  omega

theorem mac_step {s s' : State} {e : Ev} (hu : (s.map Th.tid).Nodup) (h : step .mac s e = some (.ok s')) : (s'.map Th.tid).Nodup := by
  rcases step_sub h with ⟨t, hd, i, rfl, rfl, _, h2⟩ | hs
  · rw [List.map_append, List.nodup_append]
    refine ⟨hu, by simp, ?_⟩
    intro a ha b hb
    obtain ⟨x, hx, rfl⟩ := List.mem_map.1 ha
    simp at hb
    subst hb
    exact h2 rfl x hx
  · rw [List.Nodup, List.pairwise_iff_getElem] at hu ⊢
    intro i j hi hj hij
    simp only [List.length_map] at hi hj
    obtain ⟨a, ha, _, e1, _⟩ := hs i _ (List.getElem?_eq_getElem hi)
    obtain ⟨b, hb, _, e2, _⟩ := hs j _ (List.getElem?_eq_getElem hj)
    obtain ⟨ki, ea⟩ := List.getElem?_eq_some_iff.1 ha
    obtain ⟨kj, eb⟩ := List.getElem?_eq_some_iff.1 hb
    have := hu i j (by simpa using ki) (by simpa using kj) hij
    simp only [List.getElem_map] at this ⊢
    rw [e1, e2, ← ea, ← eb]
    exact this

/-- A thread that waits does so for a thread of higher rank that was started. -/
def Wait (rank : Nat → Nat) (s : State) : Prop :=
  ∀ (t : Nat) (a : Th) (u : Nat), s[t]? = some a → a.stage = .waiting u → rank t < rank u ∧ u < s.length

theorem wait_set {rank : Nat → Nat} {s : State} (h : Wait rank s) {t : Nat} {a' : Th}
    (ha : ∀ u, a'.stage = .waiting u → rank t < rank u ∧ u < s.length) : Wait rank (s.set t a') := by
  intro k x u hx hw
  rw [List.length_set]
  rw [List.getElem?_set] at hx
  split at hx
  · rename_i e
    subst e
    split at hx
    · cases hx
      exact ha u hw
    · cases hx
  · exact h k x u hx hw

theorem wait_step {p : Platform} {rank : Nat → Nat} {s s' : State} {e : Ev} (hr : ∀ t u, e = .join t u → rank t < rank u) (hw : Wait rank s)
    (h : step p s e = some (.ok s')) : Wait rank s' := by
  rcases step_cases h with ⟨t, hd, i, rfl, rfl, _, h1, h2⟩ | ⟨t, u, a, b, rfl, ha, hb, hs, rfl⟩ | ⟨t, u, a, b, rfl, ha, hst, hb, hf, htu, rfl⟩ |
    ⟨t, u, b, rfl, hb, rfl⟩ | ⟨t, a, rfl, ha, hs, rfl⟩
  · intro k x u hx hst
    rcases getElem?_concat hx with hx | ⟨_, rfl⟩
    · have := hw k x u hx hst
      simp
      omega
    · cases hst
  · refine wait_set hw fun v hv => ?_
    cases hv
    exact ⟨hr t u rfl, (List.getElem?_eq_some_iff.1 hb).1⟩
  · refine wait_set (wait_set hw fun v hv => ?_) fun v hv => by cases hv
    simp only [hf] at hv
    cases hv
  · refine wait_set hw fun v hv => ?_
    exact hw u b v hb hv
  · exact wait_set hw fun v hv => by cases hv

theorem run_wait {p : Platform} {rank : Nat → Nat} : ∀ (es : List Ev) (s s' : State), Ranked rank es → Wait rank s → run p s es = some (.ok s') →
    Wait rank s'
  | [], s, s', _, h, hr => by cases hr; exact h
  | e :: es, s, s', hk, h, hr => by
    simp only [run] at hr
    split at hr
    · rename_i s1 h1
      refine run_wait es s1 s' (fun t u hm => hk t u (List.mem_cons_of_mem _ hm)) (wait_step (fun t u he => ?_) h h1) hr
      exact hk t u (by rw [he]; exact List.mem_cons_self)
    · cases hr
    · cases hr

/-- From a thread that waits one comes to one that runs or to one whose wait is over. -/
theorem wait_live {p : Platform} {rank : Nat → Nat} {s : State} (h : Wait rank s) (B : Nat) (hB : ∀ u, u < s.length → rank u < B) :
    ∀ (n t : Nat) (a : Th), B - rank t ≤ n → s[t]? = some a → a.stage ≠ .finished → Live p s
  | 0, t, a, hn, ha, _ => by
    have := hB t (List.getElem?_eq_some_iff.1 ha).1
    omega
  | n + 1, t, a, hn, ha, hf => by
    cases hs : a.stage with
    | finished => exact absurd hs hf
    | running =>
      refine ⟨.exit t, .ok (s.set t { a with stage := .finished }), ?_⟩
      simp only [step, ha]
      rw [if_pos (does_iff.2 ⟨a, ha, hs⟩)]
    | waiting u =>
      obtain ⟨h1, h2⟩ := h t a u ha hs
      have hu : s[u]? = some s[u] := List.getElem?_eq_getElem h2
      by_cases hfu : s[u].stage = .finished
      · refine ⟨.wake t, .ok ((s.set u { s[u] with held := false }).modify t fun a => { a with stage := .running }), ?_⟩
        simp only [step, ha, hs, hu, hfu, if_true]
      · have hb := hB u h2
        exact wait_live h B hB n u s[u] (by omega) hu hfu

theorem rank_bound (rank : Nat → Nat) : ∀ n, ∃ B, ∀ u, u < n → rank u < B
  | 0 => ⟨0, fun u hu => by omega⟩
  | n + 1 => by
    obtain ⟨B, hB⟩ := rank_bound rank n
    refine ⟨B + rank n + 1, fun u hu => ?_⟩
    rcases Nat.lt_or_ge u n with h | h
    · have := hB u h; omega
    · have : u = n := by omega
      subst this; omega

end Rpp.Joins
