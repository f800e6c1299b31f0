import Verif.Spec.PoolRace
import Verif.Proof.Sched
import Mathlib.Tactic.ByContra

/-!
# Lemmas on the accesses of a pool
-/

namespace Rpp.PoolRace

/-- The lock that guards a field. -/
def guard : Field → Lock
  | .jobs i => .queue i
  | _ => .events

/-- The order in which locks are taken. -/
def rank : Lock → Nat
  | .events => 0
  | .queue _ => 1

/-- Operations done while holding the locks `h`; `ev` is true for the event thread. -/
def Safe (ev : Bool) : List Lock → List Op → Prop
  | h, [] => h = []
  | h, .acq l :: r => (∀ k ∈ h, rank k < rank l) ∧ Safe ev (l :: h) r
  | h, .rel l :: r => l ∈ h ∧ Safe ev (h.filter (· ≠ l)) r
  | h, .rd f :: r => (guard f ∈ h ∨ (ev = true ∧ f = .pending)) ∧ Safe ev h r
  | h, .wr f :: r => guard f ∈ h ∧ (f = .pending → ev = true) ∧ Safe ev h r
  | h, .peek _ :: r => Safe ev h r

theorem safe_looks {ev : Bool} {h : List Lock} {r : List Op} (hr : Safe ev h r) : ∀ l : List Nat, Safe ev h (l.map .peek ++ r)
  | [] => hr
  | _ :: l => safe_looks hr l

theorem safe_enqueue {ev : Bool} {h : List Lock} {r : List Op} (n i : Nat) (full : Bool) (hh : ∀ k ∈ h, rank k < 1)
    (hr : Safe ev h r) : Safe ev h (enqueue n i full ++ r) := by
  unfold enqueue looks
  rw [List.append_assoc]
  refine safe_looks ?_ _
  refine ⟨hh, .head _, (by rintro ⟨⟩), .head _, ?_⟩
  have : ((Lock.queue i :: h).filter (· ≠ .queue i)) = h := by
    rw [List.filter_cons_of_neg (by simp)]
    refine List.filter_eq_self.mpr fun k hk => ?_
    have := hh k hk
    cases k with
    | events => simp
    | queue j => simp [rank] at this
  rw [this]
  simpa using hr

theorem safe_shut {ev : Bool} {r : List Op} (hr : Safe ev [] r) : ∀ l : List Nat,
    Safe ev [] (l.flatMap (fun i => [.acq (.queue i), .rel (.queue i)]) ++ r)
  | [] => hr
  | i :: l => by
    rw [List.flatMap_cons, List.append_assoc]
    refine ⟨by simp, .head _, ?_⟩
    have : (([Lock.queue i] : List Lock).filter (· ≠ .queue i)) = [] := by simp
    rw [this]
    exact safe_shut hr l

theorem safe_ops {n m t : Nat} {c : Call} (h : may n m t c = true) : Safe (decide (t = 0)) [] (ops n c) := by
  cases c with
  | enqueue i full =>
    have := safe_enqueue (ev := decide (t = 0)) (h := []) (r := []) n i full (by simp) rfl
    rwa [List.append_nil] at this
  | fire i full =>
    simp only [may, decide_eq_true_eq] at h
    refine ⟨.inr ⟨by simp [h.1], rfl⟩, by simp, .head _, (by rintro ⟨⟩), .head _, fun _ => by simp [h.1], ?_⟩
    refine safe_enqueue n i full (by simp [rank]) ⟨.head _, by simp [Safe]⟩
  | shut =>
    refine safe_shut (r := [.acq .events, .rd .pending, .rel .events]) ?_ _
    exact ⟨by simp, .inl (.head _), .head _, by simp [Safe]⟩
  | collect =>
    simp only [may, decide_eq_true_eq] at h
    simp [ops, Safe, guard, h.1]
  | quit =>
    simp only [may, decide_eq_true_eq] at h
    simp [ops, Safe, h.1]
  | _ => simp [ops, Safe, guard]

/-- Holds in all states that are reached. -/
def Inv (m : Nat) (s : St) : Prop :=
  ∃ held : Nat → List Lock, (∀ t l, s.lock l = some t ↔ l ∈ held t) ∧
    (∀ t, Safe (decide (t = 0)) (held t) (s.thr t).todo) ∧ ∀ t, m ≤ t → (s.thr t).todo = []

theorem Inv.init (m : Nat) : Inv m {} := ⟨fun _ => [], by simp, fun _ => rfl, fun _ _ => rfl⟩

theorem set_thr (s : St) (t : Nat) (x : Thr) (i : Nat) : (s.set t x).thr i = if i = t then x else s.thr i := rfl
theorem set_lock (s : St) (t : Nat) (x : Thr) : (s.set t x).lock = s.lock := rfl
theorem setLock_thr (s : St) (l : Lock) (o : Option Nat) : (s.setLock l o).thr = s.thr := rfl
theorem setLock_lock (s : St) (l : Lock) (o : Option Nat) (k : Lock) : (s.setLock l o).lock k = if k = l then o else s.lock k := rfl

theorem Inv.go {m : Nat} {s : St} (h : Inv m s) (t : Nat) : ∃ s', go s t = .ok s' ∧ Inv m s' := by
  have h0 := h
  obtain ⟨held, hl, hs, hm⟩ := h
  have ht := hs t
  unfold PoolRace.go
  cases hd : (s.thr t).todo with
  | nil => exact ⟨s, rfl, h0⟩
  | cons o r =>
    have htm : t < m := by
      by_contra hc
      rw [hm t (by omega)] at hd; cases hd
    rw [hd] at ht
    have keep : ∀ x : Thr, (Safe (decide (t = 0)) (held t) x.todo) → Inv m (s.set t x) := fun x hx =>
      ⟨held, hl, fun i => by
        rw [set_thr]
        split
        · next e => subst e; exact hx
        · exact hs i,
        fun i hi => by rw [set_thr, if_neg (by omega)]; exact hm i hi⟩
    cases o with
    | acq l =>
      dsimp only
      cases hk : s.lock l with
      | some u => exact ⟨s, rfl, h0⟩
      | none =>
        refine ⟨_, rfl, fun i => if i = t then l :: held t else held i, ?_, ?_, ?_⟩
        · intro i k
          rw [set_lock, setLock_lock]
          by_cases e : k = l
          · subst e
            rw [if_pos rfl]
            by_cases e2 : i = t
            · simp [e2]
            · have : ¬ k ∈ held i := fun hx => by have := (hl i k).mpr hx; rw [hk] at this; cases this
              simp [e2, this, Ne.symm e2]
          · rw [if_neg e, hl]
            by_cases e2 : i = t
            · subst e2; simp [e]
            · simp [e2]
        · intro i
          rw [set_thr]
          by_cases e2 : i = t
          · subst e2; simp only [if_true]; exact ht.2
          · simp only [e2, if_false]; exact hs i
        · intro i hi
          rw [set_thr, if_neg (by omega)]; exact hm i hi
    | rel l =>
      dsimp only
      have hk : s.lock l = some t := (hl t l).mpr ht.1
      rw [if_pos hk]
      refine ⟨_, rfl, fun i => if i = t then (held t).filter (· ≠ l) else held i, ?_, ?_, ?_⟩
      · intro i k
        rw [set_lock, setLock_lock]
        by_cases e : k = l
        · subst e
          rw [if_pos rfl]
          by_cases e2 : i = t
          · simp [e2]
          · have : ¬ k ∈ held i := fun hx => by
              have := (hl i k).mpr hx; rw [hk] at this; cases this; exact e2 rfl
            simp [e2, this]
        · rw [if_neg e, hl]
          by_cases e2 : i = t
          · subst e2; simp [e]
          · simp [e2]
      · intro i
        rw [set_thr]
        by_cases e2 : i = t
        · subst e2; simp only [if_true]; exact ht.2
        · simp only [e2, if_false]; exact hs i
      · intro i hi
        rw [set_thr, if_neg (by omega)]; exact hm i hi
    | rd f =>
      dsimp only
      split
      · exact ⟨_, rfl, keep _ ht.2⟩
      · exact ⟨_, rfl, keep _ ht⟩
    | wr f =>
      dsimp only
      split
      · exact ⟨_, rfl, keep _ ht.2.2⟩
      · exact ⟨_, rfl, keep _ ht⟩
    | peek i =>
      dsimp only
      split
      · exact ⟨_, rfl, keep _ ht⟩
      · exact ⟨_, rfl, keep _ ht⟩

theorem may_lt {n m t : Nat} {c : Call} (h : may n m t c = true) : t < m := by
  cases c <;> simp only [may, decide_eq_true_eq] at h <;> omega

theorem Inv.step {n m : Nat} {s : St} (h : Inv m s) (e : Ev) : ∃ s', step n m s e = .ok s' ∧ Inv m s' := by
  cases e with
  | go t => exact h.go t
  | call t c =>
    unfold PoolRace.step
    dsimp only
    by_cases hc : (s.thr t).todo = [] ∧ may n m t c = true
    · rw [if_pos hc]
      obtain ⟨held, hl, hs, hm⟩ := h
      refine ⟨_, rfl, held, hl, fun i => ?_, fun i hi => ?_⟩
      · rw [set_thr]
        split
        · next e =>
          subst e
          have := hs i
          rw [hc.1] at this
          rw [show held i = [] from this]
          exact safe_ops hc.2
        · exact hs i
      · rw [set_thr]
        split
        · next e => have := may_lt hc.2; omega
        · exact hm i hi
    · rw [if_neg hc]; exact ⟨s, rfl, h⟩

theorem Inv.run {n m : Nat} (es : List Ev) {s : St} (h : Inv m s) : ∃ s', runAll (PoolRace.step n m) s es = .ok s' ∧ Inv m s' :=
  runAll_inv (fun _ e hs => hs.step e) es s h

/-! ## Calls end -/

/-- The thread has nothing to do or waits for a lock. -/
def waits (s : St) (t : Nat) : Bool :=
  match (s.thr t).todo with
  | [] => true
  | .acq l :: _ => (s.lock l).isSome
  | _ => false

/-- Steps that remain. -/
def left (x : Thr) : Nat := 2 * x.todo.length - (if x.busy = true ∧ x.todo ≠ [] then 1 else 0)

/-- Steps that remain for all threads. -/
def total (m : Nat) (s : St) : Nat := ((List.range m).map fun t => left (s.thr t)).sum

theorem go_waits {s : St} {t : Nat} (h : waits s t = true) : go s t = .ok s := by
  unfold waits at h
  unfold PoolRace.go
  cases hd : (s.thr t).todo with
  | nil => rfl
  | cons o r =>
    rw [hd] at h
    cases o with
    | acq l =>
      dsimp only at h ⊢
      cases hk : s.lock l with
      | none => rw [hk] at h; cases h
      | some _ => rfl
    | _ => cases h

theorem go_advances {s s' : St} {t : Nat} (h : waits s t = false) (hg : go s t = .ok s') :
    left (s'.thr t) < left (s.thr t) ∧ ∀ i, i ≠ t → s'.thr i = s.thr i := by
  unfold waits at h
  unfold PoolRace.go at hg
  cases hd : (s.thr t).todo with
  | nil => rw [hd] at h; cases h
  | cons o r =>
    rw [hd] at h hg
    have hlen : ∀ b : Bool, left ⟨r, b⟩ ≤ 2 * r.length := fun b => by unfold left; dsimp only; omega
    have h1 : 2 * r.length + 1 ≤ left (s.thr t) := by
      unfold left
      rw [hd, List.length_cons]
      split <;> omega
    have fin : ∀ s2 : St, s2.thr = s.thr → left ((s2.set t ⟨r, false⟩).thr t) < left (s.thr t) ∧
        ∀ i, i ≠ t → (s2.set t ⟨r, false⟩).thr i = s.thr i := fun s2 e => by
      refine ⟨?_, fun i hi => by rw [set_thr, if_neg hi, e]⟩
      rw [set_thr, if_pos rfl]
      have := hlen false
      omega
    have acc : ∀ o : Op, (s.thr t).todo = o :: r →
        (if (s.thr t).busy = true then (.ok (s.set t ⟨r, false⟩) : Res St) else .ok (s.set t ⟨o :: r, true⟩)) = .ok s' →
        left (s'.thr t) < left (s.thr t) ∧ ∀ i, i ≠ t → s'.thr i = s.thr i := fun o ho hg => by
      by_cases hb : (s.thr t).busy = true
      · rw [if_pos hb] at hg; cases hg; exact fin s rfl
      · rw [if_neg hb] at hg
        cases hg
        refine ⟨?_, fun i hi => by rw [set_thr, if_neg hi]⟩
        rw [set_thr, if_pos rfl]
        unfold left
        rw [ho]
        simp only [hb, List.length_cons]
        simp
        omega
    cases o with
    | acq l =>
      dsimp only at h hg
      cases hk : s.lock l with
      | some _ => rw [hk] at h; cases h
      | none => rw [hk] at hg; cases hg; exact fin _ rfl
    | rel l =>
      dsimp only at hg
      split at hg
      · cases hg; exact fin _ rfl
      · cases hg
    | rd f => exact acc _ hd hg
    | wr f => exact acc _ hd hg
    | peek i => exact acc _ hd hg

theorem sum_lt {f g : Nat → Nat} {t : Nat} : ∀ {m : Nat}, t < m → f t < g t → (∀ i, i ≠ t → f i = g i) →
    ((List.range m).map f).sum < ((List.range m).map g).sum := by
  intro m
  induction m with
  | zero => intro h; omega
  | succ m ih =>
    intro ht hlt he
    rw [List.range_succ, List.map_append, List.map_append, List.sum_append, List.sum_append]
    simp only [List.map_cons, List.map_nil, List.sum_cons, List.sum_nil]
    by_cases e : t = m
    · subst e
      have : (List.range t).map f = (List.range t).map g :=
        List.map_congr_left fun i hi => he i (by have := List.mem_range.mp hi; omega)
      rw [this]
      omega
    · have := ih (by omega) hlt he
      rw [he m (fun x => e x.symm)]
      omega

theorem Inv.lt {m : Nat} {s : St} (h : Inv m s) {t : Nat} (hw : (s.thr t).todo ≠ []) : t < m := by
  obtain ⟨_, _, _, hm⟩ := h
  by_contra hc
  exact hw (hm t (by omega))

/-- Some thread can go on. -/
theorem Inv.progress {m : Nat} {s : St} (h : Inv m s) {t : Nat} (ht : (s.thr t).todo ≠ []) :
    ∃ u, u < m ∧ waits s u = false := by
  have h0 := h
  obtain ⟨held, hl, hs, hm⟩ := h
  -- a thread that holds the lock of a queue does not wait
  have h1 : ∀ u i, s.lock (.queue i) = some u → u < m ∧ waits s u = false := fun u i hu => by
    have hh := (hl u (.queue i)).mp hu
    have hsu := hs u
    unfold waits
    cases hd : (s.thr u).todo with
    | nil => rw [hd] at hsu; rw [show held u = [] from hsu] at hh; cases hh
    | cons o r =>
      refine ⟨h0.lt (by rw [hd]; simp), ?_⟩
      cases o with
      | acq l =>
        rw [hd] at hsu
        have := hsu.1 _ hh
        cases l <;> simp [rank] at this
      | _ => rfl
  have h2 : ∀ u, s.lock .events = some u → ∃ u, u < m ∧ waits s u = false := fun u hu => by
    have hh := (hl u .events).mp hu
    have hsu := hs u
    cases hd : (s.thr u).todo with
    | nil => rw [hd] at hsu; rw [show held u = [] from hsu] at hh; cases hh
    | cons o r =>
      cases hw : waits s u with
      | false => exact ⟨u, h0.lt (by rw [hd]; simp), hw⟩
      | true =>
        unfold waits at hw
        rw [hd] at hw hsu
        cases o with
        | acq l =>
          cases l with
          | events => have := hsu.1 _ hh; simp [rank] at this
          | queue i =>
            dsimp only at hw
            cases hk : s.lock (.queue i) with
            | none => rw [hk] at hw; cases hw
            | some v => exact ⟨v, h1 v i hk⟩
        | _ => cases hw
  cases hw : waits s t with
  | false => exact ⟨t, h0.lt ht, hw⟩
  | true =>
    unfold waits at hw
    cases hd : (s.thr t).todo with
    | nil => exact absurd hd ht
    | cons o r =>
      rw [hd] at hw
      cases o with
      | acq l =>
        dsimp only at hw
        cases hk : s.lock l with
        | none => rw [hk] at hw; cases hw
        | some v =>
          cases l with
          | events => exact h2 v hk
          | queue i => exact ⟨v, h1 v i hk⟩
      | _ => cases hw

/-- One round. -/
theorem round {n m : Nat} : ∀ (p : List Nat) {s : St}, Inv m s → ∃ s', runAll (PoolRace.step n m) s (p.map .go) = .ok s' ∧ Inv m s' ∧
    (s' = s ∧ (∀ i ∈ p, waits s i = true) ∨ total m s' < total m s) := by
  intro p
  induction p with
  | nil => intro s h; exact ⟨s, rfl, h, .inl ⟨rfl, by simp⟩⟩
  | cons t p ih =>
    intro s h
    obtain ⟨s1, e1, i1⟩ := h.go t
    cases hw : waits s t with
    | true =>
      rw [go_waits hw] at e1
      cases e1
      obtain ⟨s', e2, i2, hx⟩ := ih h
      refine ⟨s', ?_, i2, ?_⟩
      · simp only [List.map_cons, runAll, PoolRace.step, go_waits hw]; exact e2
      · rcases hx with ⟨e, ha⟩ | hlt
        · refine .inl ⟨e, fun i hi => ?_⟩
          rcases List.mem_cons.mp hi with rfl | hi
          · exact hw
          · exact ha i hi
        · exact .inr hlt
    | false =>
      obtain ⟨s', e2, i2, hx⟩ := ih i1
      refine ⟨s', ?_, i2, .inr ?_⟩
      · simp only [List.map_cons, runAll, PoolRace.step, e1]; exact e2
      · obtain ⟨hlt, hoth⟩ := go_advances hw e1
        have htm : t < m := h.lt fun hn => by unfold waits at hw; rw [hn] at hw; cases hw
        have h3 : total m s1 < total m s := sum_lt (f := fun i => left (s1.thr i)) (g := fun i => left (s.thr i)) htm hlt
          fun i hi => by rw [hoth i hi]
        rcases hx with ⟨rfl, _⟩ | hx
        · exact h3
        · omega

theorem rounds {n m : Nat} : ∀ (ps : List (List Nat)) {s : St}, Inv m s → (∀ p ∈ ps, ∀ i, i < m → i ∈ p) →
    ∃ s', runAll (PoolRace.step n m) s (ps.flatten.map .go) = .ok s' ∧ Inv m s' ∧
      ((∃ t, (s'.thr t).todo ≠ []) → total m s' + ps.length ≤ total m s) := by
  intro ps
  induction ps with
  | nil => intro s h _; exact ⟨s, rfl, h, fun _ => by simp⟩
  | cons p ps ih =>
    intro s h hp
    obtain ⟨s1, e1, i1, h1⟩ := round (n := n) p h
    obtain ⟨s', e2, i2, h2⟩ := ih i1 fun q hq => hp q (.tail _ hq)
    refine ⟨s', ?_, i2, fun hne => ?_⟩
    · rw [List.flatten_cons, List.map_append, runAll_append _ _ _ _ _ e1]; exact e2
    · have h3 := h2 hne
      rcases h1 with ⟨rfl, hw⟩ | hlt
      · -- nobody could go on: all is done, so that nothing happens later
        have hall : ∀ t, (s1.thr t).todo = [] := fun t => by
          by_contra hn
          obtain ⟨u, hu, hwu⟩ := h.progress hn
          rw [hw u (hp p (.head _) u hu)] at hwu; cases hwu
        have hstay : ∀ qs : List Nat, runAll (PoolRace.step n m) s1 (qs.map .go) = .ok s1 := fun qs => by
          induction qs with
          | nil => rfl
          | cons q qs ihq =>
            have : go s1 q = .ok s1 := go_waits (by unfold waits; rw [hall q])
            simp only [List.map_cons, runAll, PoolRace.step, this]; exact ihq
        rw [hstay] at e2
        cases e2
        obtain ⟨t, ht⟩ := hne
        exact absurd (hall t) ht
      · rw [List.length_cons]; omega

end Rpp.PoolRace
