import Verif.Spec.FlagRun
import Verif.Model.Flag
import Verif.Proof.Sched

namespace Rpp
namespace Flag

/-- 1 for a thread that has set the word but not woken the sleepers. -/
def waking (p : Pc) : Nat := if p = .wake then 1 else 0

/-- How many threads have set the word but not woken the sleepers. -/
def wakers (l : List Pc) : Nat := (l.map waking).sum

/-- The invariant. -/
structure Inv (s : St) : Prop where
  set_value : 0 < s.set ↔ s.value = true
  bal : s.set = s.completed + wakers s.thr
  ret : 0 < s.returned → 0 < s.set
  rdy : 0 < s.readies → 0 < s.set
  none_asleep : 0 < s.completed → ∀ t : Nat, s.thr[t]? ≠ some Pc.asleep

theorem map_wake (l : List Pc) (t : Nat) : (l.map wakeUp)[t]? ≠ some .asleep := by
  rw [List.getElem?_map]
  cases l[t]? with
  | none => simp
  | some p => cases p <;> simp [wakeUp]

theorem wakers_wake : ∀ (l : List Pc), wakers (l.map wakeUp) = wakers l
  | [] => rfl
  | p :: l => by
    have := wakers_wake l
    unfold wakers at *
    simp only [List.map_cons, List.sum_cons] at *
    rw [this]
    cases p <;> rfl

/-- A thread goes somewhere that is not sleep. -/
theorem Inv.move {s s' : St} (h : Inv s) {t : Nat} {p q : Pc} (ht : s.thr[t]? = some p) (hp : p ≠ .wake)
    (hq : q ≠ .asleep) (hq2 : q ≠ .wake) (h1 : s'.value = s.value) (h2 : s'.set = s.set)
    (h3 : s'.completed = s.completed) (h4 : 0 < s'.returned → 0 < s.set) (h5 : s'.readies = s.readies)
    (h6 : s'.thr = s.thr.set t q) : Inv s' := by
  refine ⟨by rw [h1, h2]; exact h.set_value, ?_, by rw [h2]; exact h4,
    by rw [h5, h2]; exact h.rdy, ?_⟩
  · rw [h2, h3, h6, h.bal]
    have := sum_set waking s.thr t q _ ht
    have e1 : waking p = 0 := if_neg hp
    have e2 : waking q = 0 := if_neg hq2
    unfold wakers
    omega
  · rw [h3, h6]
    intro hc u
    rw [getElem?_set_of ht]
    split
    · simpa using hq
    · exact h.none_asleep hc u

theorem step_inv (s : St) (e : Ev) (hc : Calm e) (h : Inv s) : ∃ s', step s e = .ok s' ∧ Inv s' := by
  cases e with
  | intr t => exact hc.elim
  | block t =>
    unfold step; dsimp only
    split
    · rename_i ht
      exact ⟨_, rfl, h.move ht (by simp) (q := .load) (by simp) (by simp) rfl rfl rfl h.ret rfl rfl⟩
    · exact ⟨s, rfl, h⟩
  | signal t =>
    unfold step; dsimp only
    split
    · rename_i ht
      have hs := sum_set waking s.thr t .wake _ ht
      have e1 : waking .idle = 0 := rfl
      have e2 : waking .wake = 1 := rfl
      refine ⟨_, rfl, ⟨?_, ?_, ?_, ?_, ?_⟩⟩
      · simp
      · have := h.bal; unfold wakers at *; dsimp only; omega
      · intro _; dsimp only; omega
      · intro _; dsimp only; omega
      · intro hp u
        dsimp only
        rw [getElem?_set_of ht]
        split
        · simp
        · exact h.none_asleep hp u
    · exact ⟨s, rfl, h⟩
  | ready t =>
    unfold step; dsimp only
    split
    · rename_i ht
      exact ⟨_, rfl, h.set_value, h.bal, h.ret, fun _ => h.set_value.mpr ht.2, h.none_asleep⟩
    · exact ⟨s, rfl, h⟩
  | spurious t =>
    unfold step; dsimp only
    split
    · rename_i ht
      exact ⟨_, rfl, h.move ht (by simp) (q := .load) (by simp) (by simp) rfl rfl rfl h.ret rfl rfl⟩
    · exact ⟨s, rfl, h⟩
  | go t =>
    unfold step; dsimp only
    split
    · rename_i ht
      split
      · rename_i hv
        exact ⟨_, rfl, h.move ht (by simp) (q := .idle) (by simp) (by simp) rfl rfl rfl
          (fun _ => h.set_value.mpr hv) rfl rfl⟩
      · exact ⟨_, rfl, h.move ht (by simp) (q := .wait) (by simp) (by simp) rfl rfl rfl h.ret rfl rfl⟩
    · rename_i ht
      by_cases hv : s.value = true
      · rw [if_pos hv]
        exact ⟨_, rfl, h.move ht (by simp) (q := .load) (by simp) (by simp) rfl rfl rfl h.ret rfl rfl⟩
      · rw [if_neg hv]
        have hs : ¬ 0 < s.set := fun c => hv (h.set_value.mp c)
        have hb := h.bal
        have h2 := sum_set waking s.thr t .asleep _ ht
        have e1 : waking .asleep = 0 := rfl
        have e2 : waking .wait = 0 := rfl
        refine ⟨_, rfl, h.set_value, ?_, h.ret, h.rdy, ?_⟩
        · unfold wakers at *; dsimp only; omega
        · dsimp only; intro hp; omega
    · rename_i ht
      have hb := h.bal
      have h2 := sum_set waking s.thr t .idle _ ht
      have e1 : waking .idle = 0 := rfl
      have e2 : waking .wake = 1 := rfl
      refine ⟨_, rfl, h.set_value, ?_, h.ret, h.rdy, fun _ u => map_wake _ u⟩
      dsimp only; rw [wakers_wake]; unfold wakers at *; omega
    · exact ⟨s, rfl, h⟩

theorem init_inv (n : Nat) : Inv (St.init n) := by
  have : wakers (List.replicate n .idle) = 0 := by simp [wakers, waking]
  refine ⟨by simp [St.init], by simp [St.init, this], by simp [St.init], by simp [St.init], by simp [St.init]⟩

theorem wakers_pos {l : List Pc} (h : 0 < wakers l) : ∃ u : Nat, l[u]? = some .wake := by
  induction l with
  | nil => simp [wakers] at h
  | cons p l ih =>
    by_cases hp : p = .wake
    · exact ⟨0, by simp [hp]⟩
    · have : wakers (p :: l) = wakers l := by
        unfold wakers; simp [waking, hp]
      rw [this] at h
      obtain ⟨u, hu⟩ := ih h
      exact ⟨u + 1, by simpa using hu⟩

/-- How many steps of its own a thread needs to leave `block` when the word is set and it is awake. -/
def left (t : Nat) (s : St) : Nat := match s.thr[t]? with
  | some .load => 1
  | some .wait => 2
  | some .asleep => 3
  | _ => 0

/-- Thread `t` does not enter `block` again. -/
def Stays (t : Nat) (e : Ev) : Prop := Calm e ∧ e ≠ .block t

theorem left_eq {t : Nat} {s s' : St} (h : s'.thr[t]? = s.thr[t]?) : left t s' = left t s := by
  unfold left; rw [h]

theorem left_step (t : Nat) (s s' : St) (e : Ev) (he : Stays t e) (hi : Inv s) (hc : 0 < s.completed)
    (h : step s e = .ok s') : left t s' ≤ left t s - (if e == .go t then 1 else 0) := by
  have hv : s.value = true := hi.set_value.mp (by have := hi.bal; omega)
  have hn := hi.none_asleep hc
  cases e with
  | intr u => exact he.1.elim
  | block u =>
    have hb : (Ev.block u == Ev.go t) = false := by simp
    rw [hb]
    unfold step at h; dsimp only at h
    split at h <;> cases h
    · rename_i hu
      rw [left_eq (s := s)]
      · simp
      · dsimp only; rw [getElem?_set_of hu, if_neg]
        rintro rfl; exact he.2 rfl
    · simp
  | signal u =>
    have hb : (Ev.signal u == Ev.go t) = false := by simp
    rw [hb]
    unfold step at h; dsimp only at h
    split at h <;> cases h
    · rename_i hu
      by_cases e : t = u
      · subst e
        unfold left; dsimp only; rw [getElem?_set_of hu, if_pos rfl]; simp
      · rw [left_eq (s := s)]
        · simp
        · dsimp only; rw [getElem?_set_of hu, if_neg e]
    · simp
  | ready u =>
    have hb : (Ev.ready u == Ev.go t) = false := by simp
    rw [hb]
    unfold step at h; dsimp only at h
    split at h <;> cases h
    · simp only [Bool.false_eq_true, if_false, Nat.sub_zero]; exact Nat.le_refl _
    · simp
  | spurious u =>
    have hb : (Ev.spurious u == Ev.go t) = false := by simp
    rw [hb]
    unfold step at h; dsimp only at h
    split at h <;> cases h
    · rename_i hu; exact absurd hu (hn u)
    · simp
  | go u =>
    by_cases e : u = t
    · subst e
      rw [if_pos (by simp)]
      unfold step at h; dsimp only at h
      split at h
      · rename_i hu
        rw [if_pos hv] at h; cases h
        unfold left; dsimp only; rw [getElem?_set_of hu, if_pos rfl, hu]; simp
      · rename_i hu
        rw [if_pos hv] at h; cases h
        unfold left; dsimp only; rw [getElem?_set_of hu, if_pos rfl, hu]; simp
      · rename_i hu
        cases h
        have : left u s = 0 := by unfold left; rw [hu]
        rw [this]
        unfold left
        dsimp only
        rw [List.getElem?_map, getElem?_set_of hu, if_pos rfl]
        simp [wakeUp]
      · rename_i h1 h2 h3
        cases h
        have : left u s = 0 := by
          unfold left
          split
          · exact absurd (by assumption) h1
          · exact absurd (by assumption) h2
          · exact absurd (by assumption) (hn u)
          · rfl
        omega
    · have hb : (Ev.go u == Ev.go t) = false := by simp [e]
      rw [hb]
      have e' : ¬ t = u := fun c => e c.symm
      unfold step at h; dsimp only at h
      split at h
      · rename_i hu
        rw [if_pos hv] at h; cases h
        rw [left_eq (s := s)]
        · simp
        · dsimp only; rw [getElem?_set_of hu, if_neg e']
      · rename_i hu
        cases h
        rw [left_eq (s := s)]
        · simp
        · dsimp only; rw [getElem?_set_of hu, if_neg e']
      · rename_i hu
        cases h
        rw [left_eq (s := s)]
        · simp
        · dsimp only
          rw [List.getElem?_map, getElem?_set_of hu, if_neg e']
          have := hn t
          cases hx : s.thr[t]? with
          | none => rfl
          | some p => rw [hx] at this; cases p <;> simp [wakeUp] at this ⊢
      · cases h; simp

theorem completed_step (s s' : St) (e : Ev) (h : step s e = .ok s') : s.completed ≤ s'.completed := by
  cases e <;> unfold step at h <;> dsimp only at h <;> (repeat' split at h) <;> cases h <;> simp

end Flag
end Rpp
