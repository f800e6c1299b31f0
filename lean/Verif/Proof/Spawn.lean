import Verif.Model.Spawn
import Verif.Proof.Arc
import Verif.Proof.Promise

namespace Rpp
namespace Arc

/-- The thread an event belongs to. -/
def Ev.tid : Ev → Nat
  | .dup t | .drop t | .give t _ | .use t | .go t => t

theorem step_other {s s' : St} {e : Ev} (h : step s e = .ok s') (x : Nat) (hx : x ≠ e.tid) (n : Nat) (pc : Pc)
    (hs : s.thr[x]? = some ⟨n, pc⟩) :
    (∃ m, n ≤ m ∧ s'.thr[x]? = some ⟨m, pc⟩) ∧ ((∀ t, e ≠ .give t x) → s'.thr[x]? = some ⟨n, pc⟩) := by
  cases e with
  | dup t =>
    unfold step at h
    dsimp only [Ev.tid] at h hx
    split at h
    · split at h
      · cases h
        dsimp only
        rw [List.getElem?_set_ne (fun q => hx q.symm)]
        exact ⟨⟨n, by omega, hs⟩, fun _ => hs⟩
      · cases h
    · cases h; exact ⟨⟨n, by omega, hs⟩, fun _ => hs⟩
  | drop t =>
    unfold step at h
    dsimp only [Ev.tid] at h hx
    split at h
    · split at h
      · cases h
        dsimp only
        rw [List.getElem?_set_ne (fun q => hx q.symm)]
        exact ⟨⟨n, by omega, hs⟩, fun _ => hs⟩
      · cases h
    · cases h; exact ⟨⟨n, by omega, hs⟩, fun _ => hs⟩
  | use t =>
    unfold step at h
    dsimp only [Ev.tid] at h hx
    split at h
    · split at h
      · cases h; exact ⟨⟨n, by omega, hs⟩, fun _ => hs⟩
      · cases h
    · cases h; exact ⟨⟨n, by omega, hs⟩, fun _ => hs⟩
  | go t =>
    unfold step at h
    dsimp only [Ev.tid] at h hx
    split at h
    · split at h
      · cases h
        dsimp only
        rw [List.getElem?_set_ne (fun q => hx q.symm)]
        exact ⟨⟨n, by omega, hs⟩, fun _ => hs⟩
      · cases h
    · split at h
      · cases h
        dsimp only
        rw [List.getElem?_set_ne (fun q => hx q.symm)]
        exact ⟨⟨n, by omega, hs⟩, fun _ => hs⟩
      · cases h
    · cases h; exact ⟨⟨n, by omega, hs⟩, fun _ => hs⟩
  | give t u =>
    unfold step at h
    dsimp only [Ev.tid] at h hx
    split at h
    · rename_i k r ht hu
      split at h
      · cases h; exact ⟨⟨n, by omega, hs⟩, fun _ => hs⟩
      · rename_i htu
        cases h
        dsimp only
        by_cases hxu : x = u
        · subst hxu
          rw [hs] at hu
          cases hu
          have hl := (List.getElem?_eq_some_iff.1 hs).1
          refine ⟨⟨n + 1, by omega, by simp [hl]⟩, fun q => absurd rfl (q t)⟩
        · rw [List.getElem?_set_ne (fun q => hxu q.symm), List.getElem?_set_ne (fun q => hx q.symm)]
          exact ⟨⟨n, by omega, hs⟩, fun _ => hs⟩
    · cases h; exact ⟨⟨n, by omega, hs⟩, fun _ => hs⟩

end Arc

namespace Promise

/-- The thread an event belongs to. -/
def Ev.tid : Ev → Nat
  | .block t | .go t | .spurious t => t

theorem role_other {plain : Bool} {s s' : St} {e : Ev} (h : step plain s e = .ok s') (x : Nat) (hx : x ≠ e.tid) :
    s'.role[x]? = s.role[x]? := by
  have hx' : ∀ r, (s.role.set e.tid r)[x]? = s.role[x]? := fun r => List.getElem?_set_ne (fun q => hx q.symm)
  cases e with
  | block t =>
    unfold step at h
    dsimp only [Ev.tid] at *
    split at h
    · rcases hf : Flag.step s.flag (.block t) with e | f
      · rw [hf] at h; cases h
      · rw [hf] at h; cases h; exact hx' _
    · cases h; rfl
  | spurious t =>
    unfold step at h
    dsimp only [Ev.tid] at *
    rcases hf : Flag.step s.flag (.spurious t) with e | f
    · rw [hf] at h; cases h
    · rw [hf] at h; cases h; rfl
  | go t =>
    unfold step at h
    dsimp only [Ev.tid] at *
    split at h
    · cases h; exact hx' _
    · rcases hf : Flag.step s.flag (.signal t) with e | f
      · rw [hf] at h; cases h
      · rw [hf] at h; cases h; exact hx' _
    · rcases hf : Flag.step s.flag (.go t) with e | f
      · rw [hf] at h; cases h
      · rw [hf] at h; cases h; exact hx' _
    · rcases hf : Flag.step s.flag (.go t) with e | f
      · rw [hf] at h; cases h
      · rw [hf] at h; cases h; exact hx' _
    · cases h; exact hx' _
    · cases h; rfl

end Promise

namespace Spawn

/-- Thread 0 between the stages. -/
inductive Worker (s : St) : Prop where
  | call : s.w = .call → s.arc.thr[0]? = some ⟨1, .idle⟩ → s.dtors = 0 → s.frees = 0 → Worker s
  | dtor (pc : Arc.Pc) : s.w = .dtor → s.pr.role[0]? = some .done → s.arc.thr[0]? = some ⟨0, pc⟩ → s.dtors = 1 →
      s.frees = 0 → Worker s
  | ended : s.w = .ended → s.pr.role[0]? = some .done → s.arc.thr[0]? = some ⟨0, .idle⟩ → s.dtors = 1 →
      s.frees = 1 → Worker s

/-- The invariant. -/
structure Inv (plain : Bool) (v : Nat) (s : St) : Prop where
  arc : Arc.Inv s.arc
  pr : Promise.Inv plain v s.pr
  held : ∀ t, busy s t = true → holds s t = true
  work : Worker s

theorem holds_iff {s : St} {t : Nat} : holds s t = true ↔ ∃ h, s.arc.thr[t]? = some ⟨h + 1, .idle⟩ := by
  unfold holds
  split
  · rename_i h e; exact ⟨fun _ => ⟨_, e⟩, fun _ => rfl⟩
  · rename_i q
    refine ⟨fun h => (Bool.false_ne_true h).elim, fun ⟨h, e⟩ => absurd e (q h)⟩

theorem Inv.there {plain : Bool} {v : Nat} {s : St} (I : Inv plain v s) {t : Nat} (h : holds s t = true) :
    s.arc.mem = true ∧ s.arc.alive = true := by
  obtain ⟨h, e⟩ := holds_iff.1 h
  obtain ⟨_, a, b, _⟩ := I.arc.idle e
  exact ⟨a, b⟩

theorem busy_congr {s s' : St} {t : Nat} (h : s'.pr.role[t]? = s.pr.role[t]?) : busy s' t = busy s t := by
  unfold busy; rw [h]

theorem role_done {s : St} {t : Nat} (h : busy s t = true) : s.pr.role[t]? ≠ some .done := by
  intro q; unfold busy at h; rw [q] at h; cases h

/-- A step on the promise by a thread with a handle. -/
theorem promise_ok {plain : Bool} {v : Nat} {s : St} (I : Inv plain v s) (e : Promise.Ev)
    (hh : holds s e.tid = true) (hw : e.tid = 0 → busy s 0 = true) :
    ∃ s', onPromise plain s e = .ok s' ∧ Inv plain v s' := by
  obtain ⟨m, a⟩ := I.there hh
  obtain ⟨p, h1, h2⟩ := Promise.step_inv plain v s.pr e I.pr
  unfold onPromise
  rw [if_pos ⟨m, a⟩, h1]
  refine ⟨_, rfl, I.arc, h2, ?_, ?_⟩
  · intro t ht
    by_cases hte : t = e.tid
    · rw [hte]; exact hh
    · rw [busy_congr (s := s) (by exact Promise.role_other h1 t hte)] at ht
      exact I.held t ht
  · have h0 : s.pr.role[0]? = some .done → p.role[0]? = some .done := by
      intro hd
      by_cases hte : 0 = e.tid
      · exact absurd hd (role_done (hw hte.symm))
      · rw [Promise.role_other h1 0 hte]; exact hd
    cases I.work with
    | call a b c d => exact .call a b c d
    | dtor pc a b c d e => exact .dtor pc a (h0 b) c d e
    | ended a b c d e => exact .ended a (h0 b) c d e

/-- A step on the handles by another thread that is not in an operation. -/
theorem arc_ok {plain : Bool} {v : Nat} {s : St} (I : Inv plain v s) (e : Arc.Ev) (h0 : e.tid ≠ 0)
    (hg : ∀ t, e ≠ .give t 0) (hb : busy s e.tid = false) :
    ∃ s', onArc s e = .ok s' ∧ Inv plain v s' := by
  obtain ⟨a, h1, h2⟩ := Arc.step_inv s.arc e I.arc
  unfold onArc
  rw [h1]
  refine ⟨_, rfl, h2, I.pr, ?_, ?_⟩
  · intro t ht
    have ht : busy s t = true := ht
    have hte : t ≠ e.tid := by
      intro q; rw [q, hb] at ht; cases ht
    obtain ⟨h, q⟩ := holds_iff.1 (I.held t ht)
    obtain ⟨m, hm, q'⟩ := (Arc.step_other h1 t hte _ _ q).1
    refine holds_iff.2 ⟨m - 1, ?_⟩
    dsimp only
    rw [q']
    simp
    omega
  · have hk : ∀ n pc, s.arc.thr[0]? = some ⟨n, pc⟩ → a.thr[0]? = some ⟨n, pc⟩ := fun n pc q =>
      (Arc.step_other h1 0 (fun q => h0 q.symm) n pc q).2 hg
    cases I.work with
    | call a b c d => exact .call a (hk _ _ b) c d
    | dtor pc a b c d e => exact .dtor pc a b (hk _ _ c) d e
    | ended a b c d e => exact .ended a b (hk _ _ c) d e

theorem step_inv (plain : Bool) (v : Nat) (s : St) (e : Ev) (I : Inv plain v s) :
    ∃ s', step plain s e = .ok s' ∧ Inv plain v s' := by
  cases e with
  | block t =>
    unfold step
    dsimp only
    split
    · rename_i h
      exact promise_ok I (.block t) h.2.1 (fun q => absurd q h.1)
    · exact ⟨s, rfl, I⟩
  | ready t =>
    unfold step
    dsimp only
    split
    · rename_i h
      rw [if_pos (I.there h.2.1)]
      exact ⟨s, rfl, I⟩
    · exact ⟨s, rfl, I⟩
  | dup t =>
    unfold step
    dsimp only
    split
    · rename_i h
      exact arc_ok I (.dup t) h.1 (by simp) (by simpa [Arc.Ev.tid] using h.2)
    · exact ⟨s, rfl, I⟩
  | drop t =>
    unfold step
    dsimp only
    split
    · rename_i h
      exact arc_ok I (.drop t) h.1 (by simp) (by simpa [Arc.Ev.tid] using h.2)
    · exact ⟨s, rfl, I⟩
  | give t u =>
    unfold step
    dsimp only
    split
    · rename_i h
      exact arc_ok I (.give t u) h.1 (by intro x q; cases q; exact h.2.1 rfl) (by simpa [Arc.Ev.tid] using h.2.2)
    · exact ⟨s, rfl, I⟩
  | spurious t =>
    unfold step
    dsimp only
    split
    · rename_i h
      exact promise_ok I (.spurious t) (I.held t h) (fun q => by simp only [Promise.Ev.tid] at q; rw [← q]; exact h)
    · exact ⟨s, rfl, I⟩
  | go t =>
    unfold step
    dsimp only
    split
    · rename_i h
      exact promise_ok I (.go t) (I.held t h) (fun q => by simp only [Promise.Ev.tid] at q; rw [← q]; exact h)
    · rename_i hb
      split
      · rename_i h0
        subst h0
        have hb' : busy s 0 = false := by simpa using hb
        cases I.work with
        | call a b c d =>
          rw [a]
          dsimp only
          obtain ⟨ar, h1, h2⟩ := Arc.step_inv s.arc (.drop 0) I.arc
          unfold onArc
          rw [h1]
          refine ⟨_, rfl, h2, I.pr, ?_, ?_⟩
          · intro t ht
            have ht : busy s t = true := ht
            have hte : t ≠ 0 := by intro q; rw [q, hb'] at ht; cases ht
            obtain ⟨h, q⟩ := holds_iff.1 (I.held t ht)
            exact holds_iff.2 ⟨h, (Arc.step_other h1 t hte _ _ q).2 (by simp)⟩
          · have hr : s.pr.role[0]? = some .done := by
              rcases I.pr.z with q | q | q | q
              · unfold busy at hb'; rw [q] at hb'; cases hb'
              · unfold busy at hb'; rw [q] at hb'; cases hb'
              · unfold busy at hb'; rw [q] at hb'; cases hb'
              · exact q.1
            have : ∃ pc, ar.thr[0]? = some ⟨0, pc⟩ := by
              unfold Arc.step at h1
              dsimp only at h1
              rw [b] at h1
              dsimp only at h1
              have hl := (List.getElem?_eq_some_iff.1 b).1
              split at h1
              · cases h1
                exact ⟨if s.arc.refs - 1 = 0 then .destruct else .idle, by simp [hl]⟩
              · cases h1
            obtain ⟨pc, hpc⟩ := this
            exact .dtor pc rfl hr hpc (by dsimp only; omega) d
        | dtor pc a b c d e =>
          rw [a]
          dsimp only
          rw [c]
          split
          · rename_i hp
            have : pc = .idle := by simpa using hp
            subst this
            exact ⟨_, rfl, I.arc, I.pr, I.held, .ended rfl b c d (by dsimp only; omega)⟩
          · obtain ⟨ar, h1, h2⟩ := Arc.step_inv s.arc (.go 0) I.arc
            unfold onArc
            rw [h1]
            refine ⟨_, rfl, h2, I.pr, ?_, ?_⟩
            · intro t ht
              have ht : busy s t = true := ht
              have hte : t ≠ 0 := by intro q; rw [q, hb'] at ht; cases ht
              obtain ⟨h, q⟩ := holds_iff.1 (I.held t ht)
              exact holds_iff.2 ⟨h, (Arc.step_other h1 t hte _ _ q).2 (by simp)⟩
            · have : ∃ pc, ar.thr[0]? = some ⟨0, pc⟩ := by
                have hl := (List.getElem?_eq_some_iff.1 c).1
                unfold Arc.step at h1
                dsimp only at h1
                rw [c] at h1
                cases pc with
                | idle => cases h1; exact ⟨_, c⟩
                | destruct =>
                  dsimp only at h1
                  split at h1
                  · cases h1; exact ⟨.free, by simp [hl]⟩
                  · cases h1
                | free =>
                  dsimp only at h1
                  split at h1
                  · cases h1; exact ⟨.idle, by simp [hl]⟩
                  · cases h1
              obtain ⟨pc, hpc⟩ := this
              exact .dtor pc a b hpc d e
        | ended a b c d e =>
          rw [a]
          exact ⟨s, rfl, I⟩
      · rename_i h0
        exact arc_ok I (.go t) h0 (by simp) (by simpa [Arc.Ev.tid] using hb)

theorem init_inv (plain : Bool) (n v : Nat) : Inv plain v (St.init n v) := by
  refine ⟨⟨?_, ?_⟩, Promise.init_inv plain (n + 1) v, ?_, .call rfl rfl rfl rfl⟩
  · simp [St.init, Arc.St.handles]
  · refine .live ?_ rfl rfl rfl rfl ?_
    · simp [St.init, Arc.St.handles]
    · intro t r hr
      match t with
      | 0 => cases hr; rfl
      | 1 => cases hr; rfl
      | t + 2 =>
        have : (List.replicate n (⟨0, .idle⟩ : Arc.Thr))[t]? = some r := hr
        have := List.mem_of_getElem? this
        rw [(List.mem_replicate.1 this).2]
  · intro t ht
    match t with
    | 0 => rfl
    | 1 => rfl
    | t + 2 =>
      exfalso
      unfold busy at ht
      have : (St.init n v).pr.role[t + 2]? = (List.replicate n Promise.Role.out)[t]? := by
        simp [St.init, Promise.St.init, List.replicate_succ]
      rw [this] at ht
      rcases hq : (List.replicate n Promise.Role.out)[t]? with _ | r
      · rw [hq] at ht; cases ht
      · have hm := (List.mem_replicate.1 (List.mem_of_getElem? hq)).2
        subst hm
        rw [hq] at ht
        cases ht

/-- Steps left in `f->~F()` and `A::free(f)`. -/
def dropLeft : Option Arc.Thr → Nat
  | some ⟨_, .destruct⟩ => 3
  | some ⟨_, .free⟩ => 2
  | _ => 1

/-- Steps left from within `(*f)()`. -/
def roleLeft : Option Promise.Role → Nat
  | some (.store _) => 7
  | some .signal => 6
  | some .signalling => 5
  | _ => 4

/-- How many steps thread 0 still has to make. -/
def todo (s : St) : Nat :=
  match s.w with
  | .ended => 0
  | .dtor => dropLeft s.arc.thr[0]?
  | .call => roleLeft s.pr.role[0]?

theorem roleLeft_le (r : Option Promise.Role) : 4 ≤ roleLeft r := by
  unfold roleLeft; split <;> omega

theorem dropLeft_le (r : Option Arc.Thr) : dropLeft r ≤ 3 ∧ 1 ≤ dropLeft r := by
  unfold dropLeft; split <;> omega

/-- Only thread 0 makes progress in its program, one with every step. -/
theorem todo_step (plain : Bool) (v : Nat) (s s' : St) (e : Ev) (I : Inv plain v s) (h : step plain s e = .ok s') :
    todo s' ≤ todo s - (if e == .go 0 then 1 else 0) := by
  have hpo : ∀ (e : Promise.Ev) s', onPromise plain s e = .ok s' → e.tid ≠ 0 → todo s' = todo s := by
    intro e s' h h0
    unfold onPromise at h
    split at h
    · rcases hp : Promise.step plain s.pr e with x | p
      · rw [hp] at h; cases h
      · rw [hp] at h; cases h
        unfold todo
        dsimp only
        rw [Promise.role_other hp 0 (fun q => h0 q.symm)]
    · cases h
  have hao : ∀ (e : Arc.Ev) s', onArc s e = .ok s' → e.tid ≠ 0 → (∀ t, e ≠ .give t 0) → todo s' = todo s := by
    intro e s' h h0 hg
    unfold onArc at h
    rcases hp : Arc.step s.arc e with x | p
    · rw [hp] at h; cases h
    · rw [hp] at h; cases h
      unfold todo
      dsimp only
      have : p.thr[0]? = s.arc.thr[0]? := by
        cases I.work with
        | call a b => rw [b]; exact (Arc.step_other hp 0 (fun q => h0 q.symm) _ _ b).2 hg
        | dtor pc a b c => rw [c]; exact (Arc.step_other hp 0 (fun q => h0 q.symm) _ _ c).2 hg
        | ended a b c => rw [c]; exact (Arc.step_other hp 0 (fun q => h0 q.symm) _ _ c).2 hg
      rw [this]
  have hbz : ∀ {t}, busy s t = true → t = 0 → s.w = .call := by
    intro t hb h0
    subst h0
    cases I.work with
    | call a => exact a
    | dtor _ _ b => exact absurd b (role_done hb)
    | ended _ b => exact absurd b (role_done hb)
  cases e with
  | block t =>
    have hne : (Ev.block t == Ev.go 0) = false := rfl
    rw [hne]
    unfold step at h
    dsimp only at h
    split at h
    · rename_i hc; exact Nat.le_of_eq (hpo _ _ h hc.1)
    · cases h; exact Nat.le_refl _
  | ready t =>
    have hne : (Ev.ready t == Ev.go 0) = false := rfl
    rw [hne]
    unfold step at h
    dsimp only at h
    split at h
    · split at h
      · cases h; exact Nat.le_refl _
      · cases h
    · cases h; exact Nat.le_refl _
  | dup t =>
    have hne : (Ev.dup t == Ev.go 0) = false := rfl
    rw [hne]
    unfold step at h
    dsimp only at h
    split at h
    · rename_i hc; exact Nat.le_of_eq (hao _ _ h hc.1 (by simp))
    · cases h; exact Nat.le_refl _
  | drop t =>
    have hne : (Ev.drop t == Ev.go 0) = false := rfl
    rw [hne]
    unfold step at h
    dsimp only at h
    split at h
    · rename_i hc; exact Nat.le_of_eq (hao _ _ h hc.1 (by simp))
    · cases h; exact Nat.le_refl _
  | give t u =>
    have hne : (Ev.give t u == Ev.go 0) = false := rfl
    rw [hne]
    unfold step at h
    dsimp only at h
    split at h
    · rename_i hc; exact Nat.le_of_eq (hao _ _ h hc.1 (by intro x q; cases q; exact hc.2.1 rfl))
    · cases h; exact Nat.le_refl _
  | spurious t =>
    have hne : (Ev.spurious t == Ev.go 0) = false := rfl
    rw [hne]
    unfold step at h
    dsimp only at h
    split at h
    · rename_i hb
      by_cases h0 : t = 0
      · have hw := hbz hb h0
        unfold onPromise at h
        split at h
        · rcases hp : Promise.step plain s.pr (.spurious t) with x | p
          · rw [hp] at h; cases h
          · rw [hp] at h; cases h
            unfold todo
            dsimp only
            rw [hw]
            have : p.role = s.pr.role := by
              unfold Promise.step at hp
              dsimp only at hp
              rcases hf : Flag.step s.pr.flag (.spurious t) with y | f
              · rw [hf] at hp; cases hp
              · rw [hf] at hp; cases hp; rfl
            rw [this]
            exact Nat.le_refl _
        · cases h
      · exact Nat.le_of_eq (hpo _ _ h h0)
    · cases h; exact Nat.le_refl _
  | go t =>
    unfold step at h
    dsimp only at h
    by_cases h0 : t = 0
    · subst h0
      have hne : (Ev.go 0 == Ev.go 0) = true := rfl
      rw [hne, if_pos rfl]
      split at h
      · rename_i hb
        have hw := hbz hb rfl
        unfold onPromise at h
        split at h
        · rcases hp : Promise.step plain s.pr (.go 0) with x | p
          · rw [hp] at h; cases h
          · rw [hp] at h; cases h
            unfold todo
            dsimp only
            rw [hw]
            dsimp only
            unfold Promise.step at hp
            dsimp only at hp
            rcases I.pr.z with q | q | q | q
            · have hl := (List.getElem?_eq_some_iff.1 q).1
              rw [q] at hp ⊢
              cases hp
              dsimp only
              rw [List.getElem?_set_self hl]
              exact Nat.le_refl _
            · have hl := (List.getElem?_eq_some_iff.1 q).1
              rw [q] at hp ⊢
              dsimp only at hp
              rcases hf : Flag.step s.pr.flag (.signal 0) with y | f
              · rw [hf] at hp; cases hp
              · rw [hf] at hp; cases hp
                dsimp only
                rw [List.getElem?_set_self hl]
                exact Nat.le_refl _
            · have hl := (List.getElem?_eq_some_iff.1 q).1
              rw [q] at hp ⊢
              dsimp only at hp
              rcases hf : Flag.step s.pr.flag (.go 0) with y | f
              · rw [hf] at hp; cases hp
              · rw [hf] at hp; cases hp
                dsimp only
                rw [List.getElem?_set_self hl]
                exact Nat.le_refl _
            · exact absurd q.1 (role_done hb)
        · cases h
      · rw [if_pos rfl] at h
        cases I.work with
        | call a b c d =>
          have ht : 4 ≤ todo s := by unfold todo; rw [a]; exact roleLeft_le _
          rw [a] at h
          dsimp only at h
          rcases hp : onArc s (.drop 0) with x | s1
          · rw [hp] at h; cases h
          · rw [hp] at h
            cases h
            have : todo { s1 with w := .dtor, dtors := s1.dtors + 1 } ≤ 3 := by
              unfold todo; exact (dropLeft_le _).1
            omega
        | dtor pc a b c d e =>
          rw [a] at h
          dsimp only at h
          rw [c] at h
          have ht : todo s = dropLeft (some ⟨0, pc⟩) := by unfold todo; rw [a]; dsimp only; rw [c]
          rw [ht]
          cases pc with
          | idle => cases h; exact Nat.le_refl _
          | destruct =>
            rw [if_neg (by simp)] at h
            unfold onArc at h
            have hl := (List.getElem?_eq_some_iff.1 c).1
            unfold Arc.step at h
            dsimp only at h
            rw [c] at h
            dsimp only at h
            split at h
            · cases h
              unfold todo
              dsimp only
              rw [a]
              dsimp only
              rw [List.getElem?_set_self hl]
              exact Nat.le_refl _
            · cases h
          | free =>
            rw [if_neg (by simp)] at h
            unfold onArc at h
            have hl := (List.getElem?_eq_some_iff.1 c).1
            unfold Arc.step at h
            dsimp only at h
            rw [c] at h
            dsimp only at h
            split at h
            · cases h
              unfold todo
              dsimp only
              rw [a]
              dsimp only
              rw [List.getElem?_set_self hl]
              exact Nat.le_refl _
            · cases h
        | ended a b c d e =>
          rw [a] at h
          cases h
          have : todo s = 0 := by unfold todo; rw [a]
          omega
    · have hne : (Ev.go t == Ev.go 0) = false := by
        simp only [beq_eq_false_iff_ne, ne_eq, Ev.go.injEq]; exact h0
      rw [hne]
      split at h
      · exact Nat.le_of_eq (hpo _ _ h h0)
      · exact Nat.le_of_eq (hao _ _ h h0 (by simp))

theorem onPromise_pr {plain : Bool} {s s' : St} {e : Promise.Ev} (h : onPromise plain s e = .ok s') :
    Promise.step plain s.pr e = .ok s'.pr := by
  unfold onPromise at h
  split at h
  · rcases hp : Promise.step plain s.pr e with x | p
    · rw [hp] at h; cases h
    · rw [hp] at h; cases h; rfl
  · cases h

theorem onArc_pr {s s' : St} {e : Arc.Ev} (h : onArc s e = .ok s') : s'.pr = s.pr := by
  unfold onArc at h
  rcases hp : Arc.step s.arc e with x | p
  · rw [hp] at h; cases h
  · rw [hp] at h; cases h; rfl

/-- What a step does to the promise. -/
theorem pr_step {plain : Bool} {s s' : St} {e : Ev} (h : step plain s e = .ok s') :
    (s'.pr = s.pr ∧ ∀ t, e = .go t → busy s t = false) ∨
    ∃ e', Promise.step plain s.pr e' = .ok s'.pr ∧ (∀ t, e' = .block t → e = .block t) ∧
      (∀ t, e = .go t → e' = .go t) := by
  cases e with
  | block t =>
    unfold step at h
    dsimp only at h
    split at h
    · exact .inr ⟨_, onPromise_pr h, fun _ q => by cases q; rfl, fun _ q => by cases q⟩
    · cases h; exact .inl ⟨rfl, fun _ q => by cases q⟩
  | ready t =>
    unfold step at h
    dsimp only at h
    split at h
    · split at h
      · cases h; exact .inl ⟨rfl, fun _ q => by cases q⟩
      · cases h
    · cases h; exact .inl ⟨rfl, fun _ q => by cases q⟩
  | dup t =>
    unfold step at h
    dsimp only at h
    split at h
    · exact .inl ⟨onArc_pr h, fun _ q => by cases q⟩
    · cases h; exact .inl ⟨rfl, fun _ q => by cases q⟩
  | drop t =>
    unfold step at h
    dsimp only at h
    split at h
    · exact .inl ⟨onArc_pr h, fun _ q => by cases q⟩
    · cases h; exact .inl ⟨rfl, fun _ q => by cases q⟩
  | give t u =>
    unfold step at h
    dsimp only at h
    split at h
    · exact .inl ⟨onArc_pr h, fun _ q => by cases q⟩
    · cases h; exact .inl ⟨rfl, fun _ q => by cases q⟩
  | spurious t =>
    unfold step at h
    dsimp only at h
    split at h
    · exact .inr ⟨_, onPromise_pr h, fun _ q => (by cases q), fun _ q => (by cases q)⟩
    · cases h; exact .inl ⟨rfl, fun _ q => by cases q⟩
  | go t =>
    unfold step at h
    dsimp only at h
    split at h
    · exact .inr ⟨_, onPromise_pr h, fun _ q => by (cases q), fun _ q => by cases q; rfl⟩
    · rename_i hb
      have hb' : ∀ u, Ev.go t = .go u → busy s u = false := fun u q => by cases q; simpa using hb
      left
      refine ⟨?_, hb'⟩
      split at h
      · split at h
        · rcases hp : onArc s (.drop 0) with x | s1
          · rw [hp] at h; cases h
          · rw [hp] at h; cases h; exact (onArc_pr hp : s1.pr = s.pr)
        · split at h
          · cases h; rfl
          · exact onArc_pr h
        · cases h; rfl
      · exact onArc_pr h

end Spawn
end Rpp
