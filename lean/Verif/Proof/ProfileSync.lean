import Verif.Spec.ProfileSync
import Verif.Proof.Sched

/-!
# Lemmas on threads that use the profiler
-/

namespace Rpp.PSync

/-- The thread holds the lock of the table. -/
def hasTable : Pc → Bool
  | .regHeld _ | .itNext _ _ | .itHeld _ _ _ | .itRead _ _ _ | .cbReg _ _ | .cbLock _ _ _ | .unregHeld => true
  | _ => false

/-- Whose frames the thread `t` has locked. -/
def hasFrames (t : Nat) : Pc → Option Nat
  | .opHeld _ | .opWrite _ => some t
  | .itHeld _ u _ | .itRead _ u _ | .cbReg u _ | .cbLock _ u _ => some u
  | _ => none

/-- Whose frames the thread reads. -/
def reads : Pc → Option Nat
  | .itRead _ u _ | .cbReg u _ | .cbLock _ u _ => some u
  | _ => none

/-- The thread changes its frames. -/
def writes : Pc → Bool
  | .opWrite _ | .endWrite => true
  | _ => false

/-- The entries of the table that the thread still looks at. -/
def todo : Pc → List Nat
  | .itNext _ r => r
  | .itHeld _ u r | .itRead _ u r | .cbReg u r | .cbLock _ u r => u :: r
  | _ => []

structure Inv (n : Nat) (s : St) : Prop where
  tl : ∀ t, hasTable (s.thr t).pc = true ↔ s.lock = some t
  fl : ∀ u t, (s.thr u).lock = some t ↔ hasFrames t (s.thr t).pc = some u
  rd0 : ∀ u, (s.thr u).lock = none → (s.thr u).readers = 0
  rd : ∀ u t, (s.thr u).lock = some t → reads (s.thr t).pc ≠ some u → (s.thr u).readers = 0
  rd1 : ∀ u, (s.thr u).readers ≤ 1
  wr : ∀ u, (s.thr u).writing = writes (s.thr u).pc
  tab : ∀ t, t ∈ s.table ↔ (s.thr t).registered = true
  nodup : s.table.Nodup
  gone : ∀ t, (s.thr t).pc = .gone → (s.thr t).registered = false
  reg : ∀ t op, ((s.thr t).pc = .regLock op ∨ (s.thr t).pc = .regHeld op) →
    (s.thr t).registered = false ∧ (op = .begin ∨ op = .scope)
  todo : ∀ t, ∀ u ∈ todo (s.thr t).pc, u ∈ s.table
  quiet : ∀ i j, iterating (s.thr i).pc = true → ending (s.thr j).pc = true → False
  calm : ∀ t, (s.thr t).pc = .endWrite → (s.thr t).during = false
  bound : ∀ t, n ≤ t → (s.thr t).pc = .idle ∧ (s.thr t).registered = false

theorem Inv.init (n : Nat) : Inv n {} := by
  constructor <;> simp [hasTable, hasFrames, writes, Rpp.PSync.todo, iterating]

theorem upd_thr (s : St) (t : Nat) (f : Thr → Thr) (i : Nat) : (s.upd t f).thr i = if i = t then f (s.thr i) else s.thr i := rfl
theorem upd_lock (s : St) (t : Nat) (f : Thr → Thr) : (s.upd t f).lock = s.lock := rfl
theorem upd_table (s : St) (t : Nat) (f : Thr → Thr) : (s.upd t f).table = s.table := rfl

theorem Inv.step_afterReady {n : Nat} {s : St} (h : Inv n s) {t : Nat} (ht : t < n) (hp : (s.thr t).pc = .idle) {op : Op}
    (hr : (s.thr t).registered = true) (hb : op = .begin → (s.thr t).during = false) (hf : op = .begin ∨ op = .scope) :
    ∃ s', afterReady s t op = .ok s' ∧ Inv n s' := by
  obtain ⟨h1,h2,h3,h3',h4,h5,h6,h7,h8,h9,h10,h11,h12,h13⟩ := h
  unfold afterReady
  rcases hf with rfl | rfl
  · dsimp only
    rw [hb rfl]
    refine ⟨_, rfl, ?_⟩
    constructor <;> simp only [upd_thr, upd_lock, upd_table] <;> grind [hasTable, hasFrames, reads, writes, Rpp.PSync.todo, iterating, ending]
  · dsimp only
    split
    · refine ⟨_, rfl, ?_⟩
      constructor <;> simp only [upd_thr, upd_lock, upd_table] <;> grind [hasTable, hasFrames, reads, writes, Rpp.PSync.todo, iterating, ending]
    · refine ⟨_, rfl, ?_⟩
      constructor <;> simp only [upd_thr, upd_lock, upd_table] <;> grind [hasTable, hasFrames, reads, writes, Rpp.PSync.todo, iterating, ending]

/-- The goal `∃ s', .ok x = .ok s' ∧ Inv n s'` for a state `x` given by updates. -/
local macro "keep" : tactic => `(tactic| (
  refine ⟨_, rfl, ?_⟩
  constructor <;> simp only [upd_thr, upd_lock, upd_table, leave] <;> grind [hasTable, hasFrames, reads, writes, Rpp.PSync.todo, iterating, ending]))

set_option maxHeartbeats 4000000 in
theorem Inv.go {n : Nat} {s : St} (h : Inv n s) (t : Nat) : ∃ s', go s t = .ok s' ∧ Inv n s' := by
  have h0 := h
  obtain ⟨h1,h2,h3,h3',h4,h5,h6,h7,h8,h9,h10,h11,h12,h13⟩ := h
  unfold PSync.go
  cases hp : (s.thr t).pc with
  | idle => exact ⟨s, rfl, h0⟩
  | gone => exact ⟨s, rfl, h0⟩
  | regLock op =>
    dsimp only
    cases hl : s.lock with
    | none => keep
    | some _ => exact ⟨s, rfl, h0⟩
  | regHeld op =>
    dsimp only
    obtain ⟨hr, ho⟩ := h9 t op (.inr hp)
    have hn : t ∉ s.table := by rw [h6, hr]; simp
    rw [if_neg hn]
    unfold afterReady
    rcases ho with rfl | rfl
    · dsimp only
      rw [if_neg (by simp [upd_thr])]
      keep
    · dsimp only
      rw [if_neg (by simp [upd_thr])]
      keep
  | opLock op =>
    dsimp only
    cases hl : (s.thr t).lock with
    | none => keep
    | some _ => exact ⟨s, rfl, h0⟩
  | opHeld op =>
    dsimp only
    split
    · keep
    · have hr : (s.thr t).readers = 0 := by grind [hasFrames, reads]
      have hw : (s.thr t).writing = false := by grind [writes]
      unfold startWrite
      rw [if_neg (by simp [hr, hw])]
      keep
  | opWrite op =>
    dsimp only
    cases op <;> (simp only [effect]; keep)
  | itLock cb =>
    dsimp only
    cases hl : s.lock with
    | none => keep
    | some _ => exact ⟨s, rfl, h0⟩
  | itNext cb r =>
    cases r with
    | nil => dsimp only; keep
    | cons u r =>
      dsimp only
      have hg : (s.thr u).pc ≠ .gone := by
        have := h10 t u (by rw [hp]; exact .head _)
        grind
      rw [if_neg hg]
      cases hl : (s.thr u).lock with
      | none => keep
      | some _ => exact ⟨s, rfl, h0⟩
  | itHeld cb u r =>
    dsimp only
    have hw : (s.thr u).writing = false := by
      rw [h5]
      have hl : (s.thr u).lock = some t := (h2 u t).mpr (by rw [hp]; rfl)
      have hq := fun hh => h11 t u (by rw [hp]; rfl) hh
      have hu : ∀ i, hasFrames i (s.thr i).pc = some u → i = t := fun i hh => by
        have := (h2 u i).mpr hh
        rw [hl] at this
        exact (Option.some.inj this).symm
      have h9 := hu u
      cases hx : (s.thr u).pc <;> simp [hx, writes, ending, hasFrames] at hq h9 ⊢
      rw [h9, hp] at hx
      cases hx
    rw [if_neg (by simp [hw])]
    split
    · keep
    · keep
  | itRead cb u r =>
    dsimp only
    cases cb with
    | none => keep
    | alloc => keep
    | scope =>
      dsimp only
      split
      · split
        · keep
        · keep
      · keep
  | cbReg u r =>
    dsimp only
    cases hl : s.lock with
    | none => grind [hasTable]
    | some _ => exact ⟨s, rfl, h0⟩
  | cbLock cb u r =>
    dsimp only
    cases hl : (s.thr t).lock with
    | none =>
      have hr : (s.thr t).readers = 0 := by grind [hasFrames, reads]
      have hw : (s.thr t).writing = false := by grind [writes]
      dsimp only
      rw [if_neg (by simp [hr, hw])]
      keep
    | some _ => exact ⟨s, rfl, h0⟩
  | endWrite =>
    dsimp only
    rw [h12 t hp]
    by_cases hg : (s.thr t).registered = true
    · simp only [hg]
      keep
    · simp only [hg]
      keep
  | unregLock =>
    dsimp only
    cases hl : s.lock with
    | none => keep
    | some _ => exact ⟨s, rfl, h0⟩
  | unregHeld =>
    dsimp only
    have hq : ∀ i, PSync.todo (s.thr i).pc = [] := fun i => by
      cases hx : (s.thr i).pc <;> first | rfl | exact (h11 i t (by rw [hx]; rfl) (by rw [hp]; rfl)).elim
    clear h0 h10
    keep

end Rpp.PSync
