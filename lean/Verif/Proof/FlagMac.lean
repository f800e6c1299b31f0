import Verif.Model.FlagMac
import Verif.Proof.Sched

namespace Rpp
namespace FlagMac

/-- Holding the mutex. -/
def held : Pc → Bool
  | .bTest | .sHeld | .sUnlock | .rHeld => true
  | _ => false

/-- The invariant. -/
structure Inv (n : Nat) (s : St) : Prop where
  len : s.thr.length = n
  hold : ∀ (t : Nat) (p : Pc), s.thr[t]? = some p → FlagMac.held p = true → s.holder = some t
  held : ∀ t : Nat, s.holder = some t → ∃ p, s.thr[t]? = some p ∧ FlagMac.held p = true
  sig : 0 < s.set ↔ s.signaled = true
  comp : s.completed ≤ s.set
  unlock : ∀ t : Nat, s.thr[t]? = some Pc.sUnlock → s.completed < s.set
  ret : 0 < s.returned → 0 < s.set
  yes : 0 < s.yes → 0 < s.set
  awake : 0 < s.set → ∀ t : Nat, s.thr[t]? ≠ some Pc.asleep

theorem init_inv (n : Nat) : Inv n (St.init n) := by
  have h : ∀ (t : Nat) (p : Pc), (List.replicate n Pc.idle)[t]? = some p → p = .idle := by
    intro t p h
    exact List.eq_of_mem_replicate (List.mem_of_getElem? h)
  refine ⟨by simp [St.init], ?_, ?_, by simp [St.init], by simp [St.init], ?_, by simp [St.init], by simp [St.init],
    by simp [St.init]⟩
  · intro t p hp hh
    rw [h t p hp] at hh; cases hh
  · intro t ht; cases ht
  · intro t ht
    cases h t _ ht

/-- A thread that does not hold the mutex goes somewhere without it. -/
theorem Inv.move {n : Nat} {s s' : St} (h : Inv n s) {t : Nat} {p q : Pc} (ht : s.thr[t]? = some p) (hp : FlagMac.held p = false)
    (hq : FlagMac.held q = false) (ha : q ≠ .asleep) (h1 : s'.holder = s.holder) (h2 : s'.signaled = s.signaled)
    (h3 : s'.set = s.set) (h4 : s'.completed = s.completed) (h5 : s'.returned = s.returned) (h6 : s'.yes = s.yes)
    (h7 : s'.thr = s.thr.set t q) : Inv n s' := by
  refine ⟨by rw [h7, List.length_set]; exact h.len, ?_, ?_, by rw [h2, h3]; exact h.sig, by rw [h3, h4]; exact h.comp, ?_,
    by rw [h3, h5]; exact h.ret, by rw [h3, h6]; exact h.yes, ?_⟩
  · intro u r hu hr
    rw [h7, getElem?_set_of ht] at hu
    rw [h1]
    split at hu
    · cases hu; rw [hq] at hr; cases hr
    · exact h.hold u r hu hr
  · intro u hu
    rw [h1] at hu
    obtain ⟨r, h8, h9⟩ := h.held u hu
    refine ⟨r, ?_, h9⟩
    rw [h7, getElem?_set_of ht, if_neg]
    · exact h8
    · rintro rfl
      rw [ht] at h8; cases h8; rw [hp] at h9; cases h9
  · intro u hu
    rw [h7, getElem?_set_of ht] at hu
    rw [h3, h4]
    split at hu
    · cases hu; cases hq
    · exact h.unlock u hu
  · intro hs u
    rw [h3] at hs
    rw [h7, getElem?_set_of ht]
    split
    · simpa using ha
    · exact h.awake hs u

/-- A thread takes the mutex. -/
theorem Inv.acquire {n : Nat} {s : St} (h : Inv n s) {t : Nat} {p q : Pc} (ht : s.thr[t]? = some p)
    (hq : FlagMac.held q = true) (hu : q ≠ .sUnlock) : ∃ s', acquire s t q = .ok s' ∧ Inv n s' := by
  unfold FlagMac.acquire
  split
  · rename_i hn
    refine ⟨_, rfl, by simpa using h.len, ?_, ?_, h.sig, h.comp, ?_, h.ret, h.yes, ?_⟩
    · intro u r hr hh
      dsimp only at hr ⊢
      rw [getElem?_set_of ht] at hr
      split at hr
      · rename_i e; rw [e]
      · have := h.hold u r hr hh
        rw [hn] at this; cases this
    · intro u hu
      dsimp only at hu ⊢
      cases hu
      exact ⟨q, by rw [getElem?_set_of ht, if_pos rfl], hq⟩
    · intro u h8
      dsimp only at h8 ⊢
      rw [getElem?_set_of ht] at h8
      split at h8
      · cases h8; exact absurd rfl hu
      · exact h.unlock u h8
    · intro hs u
      dsimp only
      rw [getElem?_set_of ht]
      split
      · intro c; cases c; cases hq
      · exact h.awake hs u
  · exact ⟨s, rfl, h⟩

/-- A thread gives up the mutex. -/
theorem Inv.release {n : Nat} {s s' : St} (h : Inv n s) {t : Nat} {p q : Pc} (ht : s.thr[t]? = some p) (hp : FlagMac.held p = true)
    (hq : FlagMac.held q = false) (ha : 0 < s.set → q ≠ .asleep) (h1 : s'.holder = none) (h2 : s'.signaled = s.signaled)
    (h3 : s'.set = s.set) (h4 : s'.completed = s.completed ∨ p = .sUnlock ∧ s'.completed = s.completed + 1)
    (h5 : 0 < s'.returned → 0 < s.set) (h6 : 0 < s'.yes → 0 < s.set)
    (h7 : s'.thr = s.thr.set t q) : Inv n s' := by
  have ho := h.hold t p ht hp
  have hone : ∀ u r, s.thr[u]? = some r → FlagMac.held r = true → u = t := by
    intro u r hu hr
    have := h.hold u r hu hr
    rw [ho] at this; cases this; rfl
  refine ⟨by rw [h7, List.length_set]; exact h.len, ?_, ?_, by rw [h2, h3]; exact h.sig, ?_, ?_,
    by rw [h3]; exact h5, by rw [h3]; exact h6, ?_⟩
  · intro u r hu hr
    rw [h7, getElem?_set_of ht] at hu
    split at hu
    · cases hu; rw [hq] at hr; cases hr
    · rename_i hne; exact absurd (hone u r hu hr) hne
  · intro u hu; rw [h1] at hu; cases hu
  · rw [h3]
    rcases h4 with h4 | ⟨rfl, h4⟩
    · rw [h4]; exact h.comp
    · rw [h4]; exact h.unlock t ht
  · intro u hu
    rw [h7, getElem?_set_of ht] at hu
    split at hu
    · cases hu; cases hq
    · rename_i hne; exact absurd (hone u _ hu rfl) hne
  · intro hs u
    rw [h3] at hs
    rw [h7, getElem?_set_of ht]
    split
    · simpa using ha hs
    · exact h.awake hs u

theorem held_wakeUp (p : Pc) : FlagMac.held (wakeUp p) = FlagMac.held p := by cases p <;> rfl

theorem step_inv (n : Nat) (s : St) (e : Ev) (h : Inv n s) : ∃ s', step s e = .ok s' ∧ Inv n s' := by
  cases e with
  | block t =>
    unfold step; dsimp only
    split
    · rename_i ht; exact ⟨_, rfl, h.move ht rfl (q := .bLock) rfl (by simp) rfl rfl rfl rfl rfl rfl rfl⟩
    · exact ⟨s, rfl, h⟩
  | signal t =>
    unfold step; dsimp only
    split
    · rename_i ht; exact ⟨_, rfl, h.move ht rfl (q := .sLock) rfl (by simp) rfl rfl rfl rfl rfl rfl rfl⟩
    · exact ⟨s, rfl, h⟩
  | ready t =>
    unfold step; dsimp only
    split
    · rename_i ht; exact ⟨_, rfl, h.move ht rfl (q := .rLock) rfl (by simp) rfl rfl rfl rfl rfl rfl rfl⟩
    · exact ⟨s, rfl, h⟩
  | spurious t =>
    unfold step; dsimp only
    split
    · rename_i ht; exact ⟨_, rfl, h.move ht rfl (q := .bWoken) rfl (by simp) rfl rfl rfl rfl rfl rfl rfl⟩
    · exact ⟨s, rfl, h⟩
  | go t =>
    unfold step; dsimp only
    split
    · rename_i ht; exact h.acquire ht rfl (by simp)
    · rename_i ht; exact h.acquire ht rfl (by simp)
    · rename_i ht
      split
      · rename_i hs
        exact ⟨_, rfl, h.release ht rfl (q := .idle) rfl (by simp) rfl rfl rfl (.inl rfl) (fun _ => h.sig.2 hs) h.yes rfl⟩
      · rename_i hs
        exact ⟨_, rfl, h.release ht rfl (q := .asleep) rfl (fun c => absurd (h.sig.1 c) hs) rfl rfl rfl (.inl rfl) h.ret h.yes rfl⟩
    · rename_i ht; exact h.acquire ht rfl (by simp)
    · rename_i ht
      have ho := h.hold t _ ht rfl
      have hget : ∀ u, ((s.thr.set t .sUnlock).map wakeUp)[u]? = if u = t then some .sUnlock else (s.thr[u]?).map wakeUp := by
        intro u
        rw [List.getElem?_map, getElem?_set_of ht]
        split <;> rfl
      refine ⟨_, rfl, by simpa using h.len, ?_, ?_, by simp, ?_, ?_, ?_, ?_, ?_⟩ <;> dsimp only
      · intro u r hu hr
        rw [hget] at hu
        split at hu
        · rename_i e; rw [e]; exact ho
        · cases hx : s.thr[u]? with
          | none => rw [hx] at hu; cases hu
          | some x =>
            rw [hx] at hu; cases hu
            rw [held_wakeUp] at hr
            exact h.hold u x hx hr
      · intro u hu
        rw [ho] at hu; cases hu
        exact ⟨.sUnlock, by rw [hget, if_pos rfl], rfl⟩
      · have := h.comp; omega
      · intro u _; have := h.comp; omega
      · intro _; omega
      · intro _; omega
      · intro _ u
        rw [hget]
        split
        · simp
        · cases s.thr[u]? with
          | none => simp
          | some p => cases p <;> simp [wakeUp]
    · rename_i ht
      exact ⟨_, rfl, h.release ht rfl (q := .idle) rfl (by simp) rfl rfl rfl (.inr ⟨rfl, rfl⟩) h.ret h.yes rfl⟩
    · rename_i ht; exact h.acquire ht rfl (by simp)
    · rename_i ht
      split
      · rename_i hs
        exact ⟨_, rfl, h.release ht rfl (q := .idle) rfl (by simp) rfl rfl rfl (.inl rfl) h.ret (fun _ => h.sig.2 hs) rfl⟩
      · rename_i hs
        exact ⟨_, rfl, h.release ht rfl (q := .idle) rfl (by simp) rfl rfl rfl (.inl rfl) h.ret h.yes rfl⟩
    · exact ⟨s, rfl, h⟩

/-- How many steps a thread has to make when the flag is set. -/
def todo : Pc → Nat
  | .idle => 0
  | .bLock => 2
  | .bTest => 1
  | .asleep => 3
  | .bWoken => 2
  | .sLock => 3
  | .sHeld => 2
  | .sUnlock => 1
  | .rLock => 2
  | .rHeld => 1

def work (s : St) : Nat := (s.thr.map todo).sum

theorem map_wakeUp {l : List Pc} (h : ∀ t : Nat, l[t]? ≠ some .asleep) : l.map wakeUp = l := by
  conv => rhs; rw [← List.map_id l]
  apply List.map_congr_left
  intro p hp
  obtain ⟨t, ht⟩ := List.getElem?_of_mem hp
  have := h t
  rw [ht] at this
  cases p <;> simp [wakeUp] at this ⊢

/-- When the flag is set, a thread that goes on either waits for the mutex or gets nearer to the end of its call. -/
theorem go_work {n : Nat} {s s' : St} {t : Nat} (h : Inv n s) (hs : 0 < s.set) (e : step s (.go t) = .ok s') :
    (s' = s ∨ work s' < work s) ∧ 0 < s'.set := by
  have hx : ∀ (p q : Pc) (l : List Pc), s.thr[t]? = some p → l = s.thr.set t q → todo q < todo p → (l.map todo).sum < work s := by
    intro p q l hp hl hlt
    have := sum_set todo s.thr t q p hp
    rw [hl]; unfold work; omega
  have ha : ∀ (p q : Pc), s.thr[t]? = some p → todo q < todo p → acquire s t q = .ok s' → (s' = s ∨ work s' < work s) ∧ 0 < s'.set := by
    intro p q hp hlt hc
    unfold acquire at hc
    split at hc <;> cases hc
    · exact ⟨.inr (hx p q _ hp rfl hlt), hs⟩
    · exact ⟨.inl rfl, hs⟩
  have hv := h.sig.1 hs
  unfold step at e; dsimp only at e
  split at e
  · rename_i ht; exact ha _ _ ht (by decide) e
  · rename_i ht; exact ha _ _ ht (by decide) e
  · rename_i ht
    rw [if_pos hv] at e; cases e
    exact ⟨.inr (hx _ .idle _ ht rfl (by decide)), hs⟩
  · rename_i ht; exact ha _ _ ht (by decide) e
  · rename_i ht
    cases e
    refine ⟨.inr (hx _ .sUnlock _ ht ?_ (by decide)), by simp⟩
    refine map_wakeUp fun u => ?_
    rw [getElem?_set_of ht]
    split
    · simp
    · exact h.awake hs u
  · rename_i ht
    cases e
    exact ⟨.inr (hx _ .idle _ ht rfl (by decide)), hs⟩
  · rename_i ht; exact ha _ _ ht (by decide) e
  · rename_i ht
    rw [if_pos hv] at e; cases e
    exact ⟨.inr (hx _ .idle _ ht rfl (by decide)), hs⟩
  · cases e; exact ⟨.inl rfl, hs⟩

/-- Unless all threads are outside, one of them can go on. -/
theorem can_go {n : Nat} {s : St} (h : Inv n s) (hs : 0 < s.set) (hst : ∀ t, t < n → step s (.go t) = .ok s) :
    ∀ t, t < n → s.thr[t]? = some .idle := by
  have hv := h.sig.1 hs
  have hne : ∀ (t : Nat) (p q : Pc) (s' : St), s.thr[t]? = some p → s'.thr = s.thr.set t q → p ≠ q → s' ≠ s := by
    intro t p q s' hp h1 h2 h3
    have : s'.thr[t]? = some q := by rw [h1, getElem?_set_of hp, if_pos rfl]
    rw [h3, hp] at this
    cases this; exact h2 rfl
  have hlt : ∀ (t : Nat) (p : Pc), s.thr[t]? = some p → t < n := by
    intro t p hp
    rw [← h.len]
    exact (List.getElem?_eq_some_iff.1 hp).1
  cases ho : s.holder with
  | some t =>
    obtain ⟨p, hp, hh⟩ := h.held t ho
    have hg := hst t (hlt t p hp)
    exfalso
    unfold step at hg; dsimp only at hg
    rw [hp] at hg
    cases p <;> simp only [FlagMac.held, Bool.false_eq_true] at hh <;> dsimp only at hg
    · rw [if_pos hv] at hg; exact hne t _ .idle _ hp rfl (by simp) (Except.ok.inj hg)
    · have := congrArg St.set (Except.ok.inj hg); simp at this
    · exact hne t _ .idle _ hp rfl (by simp) (Except.ok.inj hg)
    · rw [if_pos hv] at hg; exact hne t _ .idle _ hp rfl (by simp) (Except.ok.inj hg)
  | none =>
    intro t ht
    have hlen : t < s.thr.length := by rw [h.len]; exact ht
    have hp : s.thr[t]? = some s.thr[t] := List.getElem?_eq_getElem hlen
    generalize s.thr[t] = p at hp
    rw [hp]
    have hg := hst t ht
    have hx : ∀ q, p ≠ q → acquire s t q = .ok s → False := by
      intro q hq hc
      unfold acquire at hc
      rw [if_pos ho] at hc
      exact hne t p q _ hp rfl hq (Except.ok.inj hc)
    have hb : ∀ q, FlagMac.held q = true → p ≠ q := by
      rintro q hq rfl
      have := h.hold t p hp hq
      rw [ho] at this; cases this
    unfold step at hg; dsimp only at hg
    rw [hp] at hg
    cases p with
    | idle => rfl
    | bLock => exact (hx _ (by simp) hg).elim
    | bWoken => exact (hx _ (by simp) hg).elim
    | sLock => exact (hx _ (by simp) hg).elim
    | rLock => exact (hx _ (by simp) hg).elim
    | asleep => exact absurd hp (h.awake hs t)
    | bTest => exact absurd rfl (hb .bTest rfl)
    | sHeld => exact absurd rfl (hb .sHeld rfl)
    | sUnlock => exact absurd rfl (hb .sUnlock rfl)
    | rHeld => exact absurd rfl (hb .rHeld rfl)

/-- A stretch of the schedule in which threads go on. -/
theorem run_go {n : Nat} : ∀ (r : List Ev) (s : St), Inv n s → 0 < s.set → (∀ e ∈ r, ∃ t, e = .go t) →
    ∃ s', runAll step s r = .ok s' ∧ Inv n s' ∧ 0 < s'.set ∧
      (work s' < work s ∨ s' = s ∧ ∀ e ∈ r, step s e = .ok s)
  | [], s, h, hs, _ => ⟨s, rfl, h, hs, .inr ⟨rfl, fun _ h => absurd h (List.not_mem_nil)⟩⟩
  | e :: r, s, h, hs, hr => by
    obtain ⟨t, rfl⟩ := hr e (.head _)
    obtain ⟨s1, h1, h2⟩ := step_inv n s (.go t) h
    obtain ⟨h3, h4⟩ := go_work h hs h1
    obtain ⟨s2, h5, h6, h7, h8⟩ := run_go r s1 h2 h4 (fun e he => hr e (.tail _ he))
    refine ⟨s2, by unfold runAll; rw [h1]; exact h5, h6, h7, ?_⟩
    rcases h3 with rfl | h3
    · rcases h8 with h8 | ⟨h8, h9⟩
      · exact .inl h8
      · refine .inr ⟨h8, fun e he => ?_⟩
        rcases List.mem_cons.1 he with rfl | he
        · exact h1
        · exact h9 e he
    · left
      rcases h8 with h8 | ⟨rfl, _⟩
      · omega
      · exact h3

theorem idle_stays {n : Nat} {s : St} (h : ∀ t, t < n → s.thr[t]? = some .idle) (hl : s.thr.length = n) (t : Nat) :
    step s (.go t) = .ok s := by
  unfold step; dsimp only
  by_cases ht : t < n
  · rw [h t ht]
  · rw [List.getElem?_eq_none (by omega)]

theorem idle_work {n : Nat} {s : St} (hl : s.thr.length = n) (h : work s = 0) : ∀ t, t < n → s.thr[t]? = some .idle := by
  intro t ht
  have hp : s.thr[t]? = some s.thr[t] := List.getElem?_eq_getElem (by omega)
  have := le_sum todo s.thr t _ hp
  unfold work at h
  generalize s.thr[t] = p at *
  cases p <;> simp [todo] at this <;> first | exact hp | omega

/-- Enough rounds in which every thread gets a turn. -/
theorem run_rounds {n : Nat} : ∀ (rs : List (List Ev)) (s : St), Inv n s → 0 < s.set →
    (∀ r ∈ rs, (∀ e ∈ r, ∃ t, e = .go t) ∧ ∀ t, t < n → Ev.go t ∈ r) → work s ≤ rs.length →
    ∃ s', runAll step s rs.flatten = .ok s' ∧ Inv n s' ∧ ∀ t, t < n → s'.thr[t]? = some .idle
  | [], s, h, _, _, hw => ⟨s, rfl, h, idle_work h.len (by simpa using hw)⟩
  | r :: rs, s, h, hs, hr, hw => by
    obtain ⟨h1, h2⟩ := hr r (.head _)
    obtain ⟨s1, h3, h4, h5, h6⟩ := run_go r s h hs h1
    rw [List.flatten_cons, runAll_append step r rs.flatten s s1 h3]
    rcases h6 with h6 | ⟨rfl, h6⟩
    · exact run_rounds rs s1 h4 h5 (fun r hr' => hr r (.tail _ hr')) (by simp at hw; omega)
    · have hid := can_go h hs (fun t ht => h6 _ (h2 t ht))
      refine ⟨s1, ?_, h, hid⟩
      have : ∀ l : List Ev, (∀ e ∈ l, ∃ t, e = .go t) → runAll step s1 l = .ok s1 := by
        intro l
        induction l with
        | nil => intro _; rfl
        | cons e l ih =>
          intro hl
          obtain ⟨t, rfl⟩ := hl e (.head _)
          unfold runAll
          rw [idle_stays hid h.len t]
          exact ih (fun e he => hl e (.tail _ he))
      apply this
      intro e he
      obtain ⟨l, hl, he⟩ := List.mem_flatten.1 he
      exact (hr l (.tail _ hl)).1 e he

theorem work_le {n : Nat} {s : St} (h : Inv n s) (hs : 0 < s.set) : work s ≤ 3 * n := by
  rw [← h.len]
  unfold work
  generalize s.thr = l
  induction l with
  | nil => simp
  | cons p l ih =>
    simp only [List.map_cons, List.sum_cons, List.length_cons]
    have : todo p ≤ 3 := by cases p <;> decide
    omega

/-! ### Also before a signal -/

/-- How many steps a thread has to make until it is outside or asleep. -/
def todo0 : Pc → Nat
  | .asleep => 0
  | p => todo p

def work0 (s : St) : Nat := (s.thr.map todo0).sum

/-- Bounds the steps left: before the flag is set, the steps to sleep, and then all over again. -/
def meas (n : Nat) (s : St) : Nat := if 0 < s.set then work s else work0 s + 3 * n

theorem todo0_le (p : Pc) : todo0 p ≤ 3 := by cases p <;> decide

theorem go_meas {n : Nat} {s s' : St} {t : Nat} (h : Inv n s) (e : step s (.go t) = .ok s') :
    s' = s ∨ meas n s' < meas n s := by
  obtain ⟨_, e', hi⟩ := step_inv n s (.go t) h
  rw [e] at e'; cases e'
  by_cases hs : 0 < s.set
  · have := go_work h hs e
    unfold meas
    rw [if_pos hs, if_pos this.2]
    exact this.1
  have hv : ¬ s.signaled = true := fun c => hs (h.sig.2 c)
  have hx : ∀ (p q : Pc) (s' : St), s.thr[t]? = some p → s'.set = s.set → s'.thr = s.thr.set t q → todo0 q < todo0 p →
      meas n s' < meas n s := by
    intro p q s' hp h1 hl hlt
    have := sum_set todo0 s.thr t q p hp
    unfold meas
    rw [h1, if_neg hs, if_neg hs]
    unfold work0
    rw [hl]; omega
  have ha : ∀ (p q : Pc), s.thr[t]? = some p → todo0 q < todo0 p → acquire s t q = .ok s' → s' = s ∨ meas n s' < meas n s := by
    intro p q hp hlt hc
    unfold acquire at hc
    split at hc <;> cases hc
    · exact .inr (hx p q _ hp rfl rfl hlt)
    · exact .inl rfl
  unfold step at e; dsimp only at e
  split at e
  · rename_i ht; exact ha _ _ ht (by decide) e
  · rename_i ht; exact ha _ _ ht (by decide) e
  · rename_i ht
    rw [if_neg hv] at e; cases e
    exact .inr (hx _ .asleep _ ht rfl rfl (by decide))
  · rename_i ht; exact ha _ _ ht (by decide) e
  · rename_i ht
    cases e
    right
    have h1 := work_le hi (by simp)
    have h2 := le_sum todo0 s.thr t _ ht
    unfold meas
    rw [if_neg hs, if_pos (by simp)]
    unfold work0
    simp only [todo0, todo] at h2
    omega
  · rename_i ht
    cases e
    exact .inr (hx _ .idle _ ht rfl rfl (by decide))
  · rename_i ht; exact ha _ _ ht (by decide) e
  · rename_i ht
    rw [if_neg hv] at e; cases e
    exact .inr (hx _ .idle _ ht rfl rfl (by decide))
  · cases e; exact .inl rfl

/-- Before a signal, when nobody can go on everybody is outside or asleep. -/
theorem can_go0 {n : Nat} {s : St} (h : Inv n s) (hs : ¬ 0 < s.set) (hst : ∀ t, t < n → step s (.go t) = .ok s) :
    ∀ t, t < n → s.thr[t]? = some .idle ∨ s.thr[t]? = some .asleep := by
  have hv : ¬ s.signaled = true := fun c => hs (h.sig.2 c)
  have hne : ∀ (t : Nat) (p q : Pc) (s' : St), s.thr[t]? = some p → s'.thr = s.thr.set t q → p ≠ q → s' ≠ s := by
    intro t p q s' hp h1 h2 h3
    have : s'.thr[t]? = some q := by rw [h1, getElem?_set_of hp, if_pos rfl]
    rw [h3, hp] at this
    cases this; exact h2 rfl
  have hlt : ∀ (t : Nat) (p : Pc), s.thr[t]? = some p → t < n := by
    intro t p hp
    rw [← h.len]
    exact (List.getElem?_eq_some_iff.1 hp).1
  cases ho : s.holder with
  | some t =>
    obtain ⟨p, hp, hh⟩ := h.held t ho
    have hg := hst t (hlt t p hp)
    exfalso
    unfold step at hg; dsimp only at hg
    rw [hp] at hg
    cases p <;> simp only [FlagMac.held, Bool.false_eq_true] at hh <;> dsimp only at hg
    · rw [if_neg hv] at hg; exact hne t _ .asleep _ hp rfl (by simp) (Except.ok.inj hg)
    · have := congrArg St.set (Except.ok.inj hg); simp at this
    · exact hne t _ .idle _ hp rfl (by simp) (Except.ok.inj hg)
    · rw [if_neg hv] at hg; exact hne t _ .idle _ hp rfl (by simp) (Except.ok.inj hg)
  | none =>
    intro t ht
    have hlen : t < s.thr.length := by rw [h.len]; exact ht
    have hp : s.thr[t]? = some s.thr[t] := List.getElem?_eq_getElem hlen
    generalize s.thr[t] = p at hp
    rw [hp]
    have hg := hst t ht
    have hx : ∀ q, p ≠ q → acquire s t q = .ok s → False := by
      intro q hq hc
      unfold acquire at hc
      rw [if_pos ho] at hc
      exact hne t p q _ hp rfl hq (Except.ok.inj hc)
    have hb : ∀ q, FlagMac.held q = true → p ≠ q := by
      rintro q hq rfl
      have := h.hold t p hp hq
      rw [ho] at this; cases this
    unfold step at hg; dsimp only at hg
    rw [hp] at hg
    cases p with
    | idle => exact .inl rfl
    | bLock => exact (hx _ (by simp) hg).elim
    | bWoken => exact (hx _ (by simp) hg).elim
    | sLock => exact (hx _ (by simp) hg).elim
    | rLock => exact (hx _ (by simp) hg).elim
    | asleep => exact .inr rfl
    | bTest => exact absurd rfl (hb .bTest rfl)
    | sHeld => exact absurd rfl (hb .sHeld rfl)
    | sUnlock => exact absurd rfl (hb .sUnlock rfl)
    | rHeld => exact absurd rfl (hb .rHeld rfl)

/-- The flag is set or a call that sets it is under way. -/
def Coming (s : St) : Prop := 0 < s.set ∨ ∃ t : Nat, s.thr[t]? = some .sLock ∨ s.thr[t]? = some .sHeld

theorem go_coming {s s' : St} {t : Nat} (e : step s (.go t) = .ok s') (h : Coming s) : Coming s' := by
  rcases h with h | ⟨u, hu⟩
  · left
    unfold step at e; dsimp only [acquire] at e
    (repeat' split at e) <;> cases e <;> first | exact h | simp
  · by_cases htu : u = t
    · subst htu
      unfold step at e; dsimp only [acquire] at e
      rcases hu with hu | hu
      · rw [hu] at e; dsimp only at e
        split at e <;> cases e
        · exact .inr ⟨u, .inr (by dsimp only; rw [getElem?_set_of hu, if_pos rfl])⟩
        · exact .inr ⟨u, .inl hu⟩
      · rw [hu] at e; cases e
        exact .inl (by simp)
    · have key : ∀ q, (s.thr.set t q)[u]? = s.thr[u]? := fun q => by rw [List.getElem?_set_ne (Ne.symm htu)]
      unfold step at e; dsimp only [acquire] at e
      (repeat' split at e) <;> cases e <;>
        first | exact .inr ⟨u, hu⟩ | exact .inr ⟨u, by dsimp only; rw [key]; exact hu⟩ | exact .inl (by simp)

/-- A stretch of the schedule in which threads go on. -/
theorem run_go0 {n : Nat} : ∀ (r : List Ev) (s : St), Inv n s → (∀ e ∈ r, ∃ t, e = .go t) →
    ∃ s', runAll step s r = .ok s' ∧ Inv n s' ∧ (Coming s → Coming s') ∧
      (meas n s' < meas n s ∨ s' = s ∧ ∀ e ∈ r, step s e = .ok s)
  | [], s, h, _ => ⟨s, rfl, h, fun x => x, .inr ⟨rfl, fun _ h => absurd h (List.not_mem_nil)⟩⟩
  | e :: r, s, h, hr => by
    obtain ⟨t, rfl⟩ := hr e (.head _)
    obtain ⟨s1, h1, h2⟩ := step_inv n s (.go t) h
    have h3 := go_meas h h1
    obtain ⟨s2, h5, h6, h7, h8⟩ := run_go0 r s1 h2 (fun e he => hr e (.tail _ he))
    refine ⟨s2, by unfold runAll; rw [h1]; exact h5, h6, fun c => h7 (go_coming h1 c), ?_⟩
    rcases h3 with rfl | h3
    · rcases h8 with h8 | ⟨h8, h9⟩
      · exact .inl h8
      · refine .inr ⟨h8, fun e he => ?_⟩
        rcases List.mem_cons.1 he with rfl | he
        · exact h1
        · exact h9 e he
    · left
      rcases h8 with h8 | ⟨rfl, _⟩
      · omega
      · exact h3

/-- Nobody can go on. -/
def Quiet (n : Nat) (s : St) : Prop :=
  ∀ t, t < n → s.thr[t]? = some .idle ∨ s.thr[t]? = some .asleep ∧ s.set = 0

theorem quiet_of {n : Nat} {s : St} (h : Inv n s) (hst : ∀ t, t < n → step s (.go t) = .ok s) : Quiet n s := by
  intro t ht
  by_cases hs : 0 < s.set
  · exact .inl (can_go h hs hst t ht)
  · exact (can_go0 h hs hst t ht).imp_right fun x => ⟨x, by omega⟩

theorem quiet_stays {n : Nat} {s : St} (h : Quiet n s) (hl : s.thr.length = n) (t : Nat) : step s (.go t) = .ok s := by
  unfold step; dsimp only
  by_cases ht : t < n
  · rcases h t ht with h | ⟨h, _⟩ <;> rw [h]
  · rw [List.getElem?_eq_none (by omega)]

theorem run_rounds0 {n : Nat} : ∀ (rs : List (List Ev)) (s : St), Inv n s →
    (∀ r ∈ rs, (∀ e ∈ r, ∃ t, e = .go t) ∧ ∀ t, t < n → Ev.go t ∈ r) → meas n s ≤ rs.length →
    ∃ s', runAll step s rs.flatten = .ok s' ∧ Inv n s' ∧ (Coming s → Coming s') ∧ Quiet n s'
  | [], s, h, _, hw => by
    refine ⟨s, rfl, h, fun x => x, fun t ht => ?_⟩
    have hw : meas n s = 0 := by simpa using hw
    unfold meas at hw
    split at hw
    · exact .inl (idle_work h.len hw t ht)
    · omega
  | r :: rs, s, h, hr, hw => by
    obtain ⟨h1, h2⟩ := hr r (.head _)
    obtain ⟨s1, h3, h4, h5, h6⟩ := run_go0 r s h h1
    rw [List.flatten_cons, runAll_append step r rs.flatten s s1 h3]
    rcases h6 with h6 | ⟨rfl, h6⟩
    · obtain ⟨s', e1, e2, e3, e4⟩ := run_rounds0 rs s1 h4 (fun r hr' => hr r (.tail _ hr')) (by simp at hw; omega)
      exact ⟨s', e1, e2, fun c => e3 (h5 c), e4⟩
    · have hid := quiet_of h (fun t ht => h6 _ (h2 t ht))
      refine ⟨s1, ?_, h, fun x => x, hid⟩
      have : ∀ l : List Ev, (∀ e ∈ l, ∃ t, e = .go t) → runAll step s1 l = .ok s1 := by
        intro l
        induction l with
        | nil => intro _; rfl
        | cons e l ih =>
          intro hl
          obtain ⟨t, rfl⟩ := hl e (.head _)
          unfold runAll
          rw [quiet_stays hid h.len t]
          exact ih (fun e he => hl e (.tail _ he))
      apply this
      intro e he
      obtain ⟨l, hl, he⟩ := List.mem_flatten.1 he
      exact (hr l (.tail _ hl)).1 e he

theorem meas_le {n : Nat} {s : St} (h : Inv n s) : meas n s ≤ 6 * n := by
  unfold meas
  split
  · have := work_le h (by assumption); omega
  · have : work0 s ≤ 3 * n := by
      rw [← h.len]
      unfold work0
      generalize s.thr = l
      induction l with
      | nil => simp
      | cons p l ih =>
        simp only [List.map_cons, List.sum_cons, List.length_cons]
        have := todo0_le p
        omega
    omega

end FlagMac
end Rpp
