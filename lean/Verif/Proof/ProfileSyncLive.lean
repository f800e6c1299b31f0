import Verif.Proof.ProfileSyncRun

/-!
# Lemmas on threads that use the profiler: calls end
-/

namespace Rpp.PSync

/-- Steps that remain for the thread, at most. -/
def rank (n : Nat) : Pc → Nat
  | .idle | .gone => 0
  | .opWrite _ => 1 | .opHeld _ => 2 | .opLock _ => 3 | .regHeld _ => 4 | .regLock _ => 5
  | .itNext _ r => 1 + 3 * r.length | .itHeld _ _ r => 3 + 3 * r.length | .itRead _ _ r => 2 + 3 * r.length
  | .cbReg _ r | .cbLock _ _ r => 2 + 3 * r.length
  | .itLock _ => 2 + 3 * n
  | .endWrite => 3 | .unregLock => 2 | .unregHeld => 1

/-- No callback that uses the profiler. -/
def plain : Pc → Bool
  | .itLock cb | .itNext cb _ | .itHeld cb _ _ | .itRead cb _ _ => decide (cb = .none)
  | .cbReg _ _ | .cbLock _ _ _ => false
  | _ => true

/-- The thread has nothing to do or waits for a lock. -/
def waits (s : St) (t : Nat) : Bool :=
  match (s.thr t).pc with
  | .idle | .gone => true
  | .regLock _ | .itLock _ | .unregLock => s.lock.isSome
  | .opLock _ => (s.thr t).lock.isSome
  | .itNext _ (u :: _) => (s.thr u).lock.isSome
  | _ => false

theorem nodup_length {n : Nat} : ∀ {l : List Nat}, l.Nodup → (∀ x ∈ l, x < n) → l.length ≤ n := by
  induction n with
  | zero => intro l _ h; cases l with
    | nil => simp
    | cons x l => exact absurd (h x (.head _)) (by omega)
  | succ n ih =>
    intro l hn hb
    have := ih (l := l.filter (· ≠ n)) (hn.filter _) (fun x hx => by
      have h1 := List.mem_filter.mp hx
      have := hb x h1.1
      have : x ≠ n := by simpa using h1.2
      omega)
    have hc : l.count n ≤ 1 := List.nodup_iff_count.mp hn n
    have h2 : ∀ l : List Nat, l.length = (l.filter (· ≠ n)).length + l.count n := by
      intro l
      induction l with
      | nil => rfl
      | cons x l ih =>
        by_cases e : x = n
        · subst e; simp [ih]; omega
        · simp [e, ih]; omega
    have := h2 l
    omega

theorem Inv.table_length {n : Nat} {s : St} (h : Inv n s) : s.table.length ≤ n :=
  nodup_length h.nodup fun x hx => by
    have h1 := (h.tab x).mp hx
    by_cases hb : x < n
    · exact hb
    · have := (h.bound x (by omega)).2
      rw [this] at h1; cases h1

theorem go_waits {n : Nat} {s : St} (h : Inv n s) {t : Nat} (hw : waits s t = true) : go s t = .ok s := by
  obtain ⟨s', e, _⟩ := h.go t
  unfold waits at hw
  unfold PSync.go at e ⊢
  cases hp : (s.thr t).pc with
  | itNext cb r =>
    cases r with
    | nil => simp [hp] at hw
    | cons u r =>
      simp only [hp] at hw e ⊢
      cases hl : (s.thr u).lock with
      | none => simp [hl] at hw
      | some x =>
        rw [hl] at e
        by_cases hg : (s.thr u).pc = .gone
        · rw [if_pos hg] at e; cases e
        · rw [if_neg hg]
  | _ => first
    | (simp [hp] at hw; done)
    | rfl
    | (simp only [hp] at hw ⊢
       cases hl : s.lock with
       | none => simp [hl] at hw
       | some x => rfl)
    | (simp only [hp] at hw ⊢
       cases hl : (s.thr t).lock with
       | none => simp [hl] at hw
       | some x => rfl)

/-- The thread is nearer to its end, and the others are where they were. -/
def Adv (n : Nat) (s s' : St) (t : Nat) : Prop :=
  rank n (s'.thr t).pc < rank n (s.thr t).pc ∧ (∀ i, i ≠ t → (s'.thr i).pc = (s.thr i).pc) ∧
    (plain (s.thr t).pc = true → plain (s'.thr t).pc = true)

theorem go_advances {n : Nat} {s : St} (h : Inv n s) {t : Nat} (hw : waits s t = false) (hpl : plain (s.thr t).pc = true) :
    ∃ s', go s t = .ok s' ∧ Adv n s s' t := by
  obtain ⟨s', e, _⟩ := h.go t
  refine ⟨s', e, ?_⟩
  have htl := h.table_length
  unfold waits at hw
  unfold PSync.go at e
  cases hp : (s.thr t).pc with
  | idle => simp [hp] at hw
  | gone => simp [hp] at hw
  | regLock op =>
    simp only [hp] at hw e
    cases hl : s.lock with
    | some _ => simp [hl] at hw
    | none => rw [hl] at e; cases e; refine ⟨?_, fun i hi => ?_, fun _ => ?_⟩ <;> simp_all [upd_thr, rank, plain]
  | regHeld op =>
    simp only [hp] at e
    split at e
    · cases e
    · unfold afterReady at e
      cases op <;> dsimp only at e <;> (try split at e) <;> cases e <;>
        (refine ⟨?_, fun i hi => ?_, fun _ => ?_⟩ <;> simp_all [upd_thr, rank, plain])
  | opLock op =>
    simp only [hp] at hw e
    cases hl : (s.thr t).lock with
    | some _ => simp [hl] at hw
    | none => rw [hl] at e; cases e; refine ⟨?_, fun i hi => ?_, fun _ => ?_⟩ <;> simp_all [upd_thr, rank, plain]
  | opHeld op =>
    simp only [hp] at e
    split at e
    · cases e; refine ⟨?_, fun i hi => ?_, fun _ => ?_⟩ <;> simp_all [upd_thr, rank, plain]
    · unfold startWrite at e
      split at e
      · cases e
      · cases e; refine ⟨?_, fun i hi => ?_, fun _ => ?_⟩ <;> simp_all [upd_thr, rank, plain]
  | opWrite op =>
    simp only [hp] at e
    cases e; refine ⟨?_, fun i hi => ?_, fun _ => ?_⟩ <;> simp_all [upd_thr, rank, plain]
  | itLock cb =>
    simp only [hp] at hw e
    cases hl : s.lock with
    | some _ => simp [hl] at hw
    | none =>
      rw [hl] at e; cases e
      refine ⟨?_, fun i hi => ?_, fun _ => ?_⟩
      · simp [upd_thr, rank, hp]; omega
      all_goals simp_all [upd_thr, plain]
  | itNext cb r =>
    cases r with
    | nil =>
      simp only [hp] at e
      cases e; refine ⟨?_, fun i hi => ?_, fun _ => ?_⟩ <;> simp_all [upd_thr, rank, plain]
    | cons u r =>
      simp only [hp] at hw e
      split at e
      · cases e
      · cases hl : (s.thr u).lock with
        | some _ => simp [hl] at hw
        | none =>
          rw [hl] at e; cases e
          refine ⟨?_, fun i hi => ?_, fun _ => ?_⟩
          · simp [upd_thr, rank, hp]; omega
          · simp only [upd_thr, if_neg hi]; split <;> rfl
          · simp_all [upd_thr, plain]
  | itHeld cb u r =>
    simp only [hp] at e
    split at e
    · cases e
    · split at e <;> cases e
      · refine ⟨?_, fun i hi => ?_, fun _ => ?_⟩
        · simp [upd_thr, rank, hp]
        · simp only [upd_thr, if_neg hi]; split <;> rfl
        · simp_all [upd_thr, plain]
      · refine ⟨?_, fun i hi => ?_, fun _ => ?_⟩
        · simp [upd_thr, rank, hp]
        · simp only [upd_thr, if_neg hi]; split <;> rfl
        · simp_all [upd_thr, plain]
  | itRead cb u r =>
    cases cb with
    | none =>
      simp only [hp] at e
      cases e
      refine ⟨?_, fun i hi => ?_, fun _ => ?_⟩
      · simp [leave, upd_thr, rank, hp]
      · simp only [leave, upd_thr, if_neg hi]; split <;> rfl
      · simp_all [leave, upd_thr, plain]
    | _ => simp [hp, plain] at hpl
  | cbReg u r => simp [hp, plain] at hpl
  | cbLock cb u r => simp [hp, plain] at hpl
  | endWrite =>
    simp only [hp] at e
    split at e
    · cases e
    · cases e
      refine ⟨?_, fun i hi => ?_, fun _ => ?_⟩
      · simp only [upd_thr, if_true, hp]
        cases (s.thr t).registered <;> simp [rank]
      · simp [upd_thr, hi]
      · simp only [upd_thr, if_true]
        cases (s.thr t).registered <;> rfl
  | unregLock =>
    simp only [hp] at hw e
    cases hl : s.lock with
    | some _ => simp [hl] at hw
    | none => rw [hl] at e; cases e; refine ⟨?_, fun i hi => ?_, fun _ => ?_⟩ <;> simp_all [upd_thr, rank, plain]
  | unregHeld =>
    simp only [hp] at e
    cases e; refine ⟨?_, fun i hi => ?_, fun _ => ?_⟩ <;> simp_all [upd_thr, rank, plain]

/-- Who holds the lock of some frames does not wait. -/
theorem holder_runs {n : Nat} {s : St} (h : Inv n s) (hpl : ∀ i, plain (s.thr i).pc = true) {u i : Nat}
    (hl : (s.thr u).lock = some i) : waits s i = false := by
  have h1 := (h.fl u i).mp hl
  have h2 := hpl i
  unfold waits
  cases hp : (s.thr i).pc <;> simp [hp, hasFrames, plain] at h1 h2 ⊢

/-- If a thread is in a call, some thread does not wait. -/
theorem someone_runs {n : Nat} {s : St} (h : Inv n s) (hpl : ∀ i, plain (s.thr i).pc = true) {t : Nat}
    (ht : atRest (s.thr t).pc = false) : ∃ i, i < n ∧ waits s i = false := by
  have key : ∃ i, waits s i = false := by
    have table : ∀ i, s.lock = some i → ∃ i, waits s i = false := by
      intro i hi
      have h1 := (h.tl i).mpr hi
      cases hw : waits s i with
      | false => exact ⟨i, hw⟩
      | true =>
        cases hp : (s.thr i).pc with
        | itNext cb r =>
          cases r with
          | nil => simp [waits, hp] at hw
          | cons u r =>
            simp only [waits, hp] at hw
            obtain ⟨j, hj⟩ := Option.isSome_iff_exists.mp hw
            exact ⟨j, holder_runs h hpl hj⟩
        | _ => first
          | (simp [hp, hasTable] at h1; done)
          | (simp [waits, hp] at hw; done)
    cases hw : waits s t with
    | false => exact ⟨t, hw⟩
    | true =>
      cases hp : (s.thr t).pc with
      | itNext cb r =>
        cases r with
        | nil => simp [waits, hp] at hw
        | cons u r =>
          simp only [waits, hp] at hw
          obtain ⟨j, hj⟩ := Option.isSome_iff_exists.mp hw
          exact ⟨j, holder_runs h hpl hj⟩
      | opLock op =>
        simp only [waits, hp] at hw
        obtain ⟨j, hj⟩ := Option.isSome_iff_exists.mp hw
        exact ⟨j, holder_runs h hpl hj⟩
      | _ => first
        | (simp [hp, atRest] at ht; done)
        | (simp [waits, hp] at hw; done)
        | (simp only [waits, hp] at hw
           obtain ⟨j, hj⟩ := Option.isSome_iff_exists.mp hw
           exact table j hj)
  obtain ⟨i, hi⟩ := key
  refine ⟨i, ?_, hi⟩
  by_cases hb : i < n
  · exact hb
  · have := (h.bound i (by omega)).1
    simp [waits, this] at hi

/-- Steps that remain for all threads, at most. -/
def total (n : Nat) (s : St) : Nat := ((List.range n).map fun t => rank n (s.thr t).pc).sum

theorem sum_le {l : List Nat} {f g : Nat → Nat} (h : ∀ i ∈ l, f i ≤ g i) : (l.map f).sum ≤ (l.map g).sum := by
  induction l with
  | nil => simp
  | cons x l ih =>
    simp only [List.map_cons, List.sum_cons]
    have := h x (.head _)
    have := ih fun i hi => h i (.tail _ hi)
    omega

theorem sum_lt {l : List Nat} {f g : Nat → Nat} {t : Nat} (ht : t ∈ l) (h : ∀ i ∈ l, f i ≤ g i) (h1 : f t < g t) :
    (l.map f).sum < (l.map g).sum := by
  induction l with
  | nil => cases ht
  | cons x l ih =>
    simp only [List.map_cons, List.sum_cons]
    have hx := h x (.head _)
    have hl := sum_le fun i hi => h i (.tail x hi)
    rcases List.mem_cons.mp ht with rfl | ht
    · omega
    · have := ih ht fun i hi => h i (.tail _ hi)
      omega

theorem Adv.total {n : Nat} {s s' : St} {t : Nat} (ht : t < n) (h : Adv n s s' t) : total n s' < total n s := by
  refine sum_lt (List.mem_range.mpr ht) (fun i _ => ?_) h.1
  by_cases e : i = t
  · subst e; exact Nat.le_of_lt h.1
  · rw [h.2.1 i e]; exact Nat.le_refl _

/-- A step keeps everything or brings the whole nearer to its end. -/
theorem go_total {n : Nat} {s : St} (h : Inv n s) (hpl : ∀ i, plain (s.thr i).pc = true) (t : Nat) :
    ∃ s', go s t = .ok s' ∧ Inv n s' ∧ (∀ i, plain (s'.thr i).pc = true) ∧
      (if waits s t then s' = s else total n s' < total n s) := by
  cases hw : waits s t with
  | true => exact ⟨s, go_waits h hw, h, hpl, by simp⟩
  | false =>
    obtain ⟨s', e, ha⟩ := go_advances h hw (hpl t)
    obtain ⟨s2, e2, hi⟩ := h.go t
    have : s' = s2 := by rw [e] at e2; exact Except.ok.inj e2
    subst this
    refine ⟨s', e, hi, fun i => ?_, ?_⟩
    · by_cases hit : i = t
      · subst hit; exact ha.2.2 (hpl i)
      · rw [ha.2.1 i hit]; exact hpl i
    · have ht : t < n := by
        by_cases hb : t < n
        · exact hb
        · have := (h.bound t (by omega)).1
          simp [waits, this] at hw
      simpa using ha.total ht

/-- A round in which every thread gets a turn takes at least one step, if there is one to take. -/
theorem round {n : Nat} : ∀ (p : List Nat) (s : St), Inv n s → (∀ i, plain (s.thr i).pc = true) →
    ∃ s', runAll step s (p.map .go) = .ok s' ∧ Inv n s' ∧ (∀ i, plain (s'.thr i).pc = true) ∧ total n s' ≤ total n s ∧
      (∀ i ∈ p, waits s i = false → total n s' < total n s)
  | [], s, h, hpl => ⟨s, rfl, h, hpl, Nat.le_refl _, fun _ h => by cases h⟩
  | t :: p, s, h, hpl => by
    obtain ⟨s1, e, h1, hpl1, hd⟩ := go_total h hpl t
    obtain ⟨s2, e2, h2, hpl2, hle, hlt⟩ := round p s1 h1 hpl1
    refine ⟨s2, ?_, h2, hpl2, ?_⟩
    · simp only [List.map_cons, runAll, step]
      rw [e]
      exact e2
    · cases hw : waits s t with
      | true =>
        rw [hw] at hd
        simp only [if_true] at hd
        subst hd
        refine ⟨hle, fun i hi hn => ?_⟩
        rcases List.mem_cons.mp hi with rfl | hi
        · rw [hw] at hn; cases hn
        · exact hlt i hi hn
      | false =>
        rw [hw] at hd
        simp only [Bool.false_eq_true, if_false] at hd
        exact ⟨by omega, fun _ _ _ => by omega⟩

theorem rounds {n : Nat} : ∀ (ps : List (List Nat)) (s : St), Inv n s → (∀ i, plain (s.thr i).pc = true) →
    (∀ p ∈ ps, ∀ i, i < n → i ∈ p) → ∃ s', runAll step s (ps.flatten.map .go) = .ok s' ∧ Inv n s' ∧
      (∀ i, plain (s'.thr i).pc = true) ∧ total n s' ≤ total n s ∧
      ((∃ i, atRest (s'.thr i).pc = false) → total n s' + ps.length ≤ total n s)
  | [], s, h, hpl, _ => ⟨s, rfl, h, hpl, Nat.le_refl _, fun _ => Nat.le_refl _⟩
  | p :: ps, s, h, hpl, hp => by
    obtain ⟨s1, e1, h1, hpl1, hle, hlt⟩ := round p s h hpl
    obtain ⟨s2, e2, h2, hpl2, hle2, hlt2⟩ := rounds ps s1 h1 hpl1 fun q hq => hp q (.tail _ hq)
    refine ⟨s2, ?_, h2, hpl2, by omega, fun hx => ?_⟩
    · rw [List.flatten_cons, List.map_append, runAll_append _ _ _ _ _ e1]
      exact e2
    · have h3 := hlt2 hx
      obtain ⟨j, hj⟩ := hx
      -- somebody was in a call at the start of the round as well
      by_cases hr : ∃ i, atRest (s.thr i).pc = false
      · obtain ⟨t, ht⟩ := hr
        obtain ⟨i, hi, hw⟩ := someone_runs h hpl ht
        have := hlt i (hp p (.head _) i hi) hw
        simp only [List.length_cons]
        omega
      · have hall : ∀ i, atRest (s.thr i).pc = true := fun i => by
          cases hc : atRest (s.thr i).pc with
          | true => rfl
          | false => exact (hr ⟨i, hc⟩).elim
        have h0 : total n s = 0 := by
          unfold total
          have : ∀ l : List Nat, (l.map fun t => rank n (s.thr t).pc).sum = 0 := by
            intro l
            induction l with
            | nil => rfl
            | cons x l ih =>
              have := hall x
              simp only [List.map_cons, List.sum_cons, ih]
              cases hc : (s.thr x).pc <;> simp [hc, atRest, rank] at this ⊢
          exact this _
        have hb : j < n := by
          by_cases hb : j < n
          · exact hb
          · have := (h2.bound j (by omega)).1
            rw [this] at hj; cases hj
        have h4 : rank n (s2.thr j).pc ≤ total n s2 := by
          have h5 : ∀ l : List Nat, j ∈ l → rank n (s2.thr j).pc ≤ (l.map fun t => rank n (s2.thr t).pc).sum := by
            intro l
            induction l with
            | nil => intro h; cases h
            | cons x l ih =>
              intro h
              simp only [List.map_cons, List.sum_cons]
              rcases List.mem_cons.mp h with rfl | h
              · omega
              · have := ih h; omega
          exact h5 _ (List.mem_range.mpr hb)
        have : 0 < rank n (s2.thr j).pc := by
          cases hc : (s2.thr j).pc <;> simp [hc, atRest, rank] at hj ⊢ <;> omega
        omega

/-- An event of another thread leaves the thread where it is. -/
theorem other {s s' : St} {e : Ev} {t : Nat} (hs : step s e = .ok s')
    (ht : match e with | .call i _ | .iterate i _ | .exit i | .go i => i ≠ t) : (s'.thr t).pc = (s.thr t).pc := by
  have up : ∀ (s : St) (i : Nat) (f : Thr → Thr), i ≠ t → ((s.upd i f).thr t) = s.thr t := fun s i f h => by
    rw [upd_thr, if_neg (fun hh => h hh.symm)]
  cases e with
  | call i op =>
    dsimp only at ht
    simp only [step] at hs
    split at hs
    · unfold call at hs
      cases op <;> dsimp only at hs
      · split at hs
        · unfold afterReady at hs; dsimp only at hs; split at hs <;> cases hs
          rw [up _ _ _ ht]
        · cases hs; rw [up _ _ _ ht]
      · split at hs <;> cases hs
        rw [up _ _ _ ht]
      · split at hs
        · unfold afterReady at hs; dsimp only at hs; split at hs <;> cases hs <;> rw [up _ _ _ ht]
        · cases hs; rw [up _ _ _ ht]
      · cases hs; rw [up _ _ _ ht]
    · cases hs; rfl
  | iterate i cb =>
    dsimp only at ht
    simp only [step] at hs
    split at hs <;> cases hs
    · rw [up _ _ _ ht]
    · rfl
  | exit i =>
    dsimp only at ht
    simp only [step] at hs
    split at hs
    · unfold startWrite at hs; split at hs <;> cases hs
      rw [up _ _ _ ht]
    · cases hs; rfl
  | go i =>
    dsimp only at ht
    simp only [step] at hs
    unfold PSync.go at hs
    split at hs
    case h_4 =>
      split at hs
      · cases hs
      · unfold afterReady at hs
        dsimp only at hs
        split at hs <;> (try split at hs) <;> cases hs <;> (rw [up _ _ _ ht]; simp only [up _ _ _ ht])
    all_goals
      repeat' (first | (cases hs; done) | split at hs)
    all_goals
      first
      | (cases hs; rfl)
      | (cases hs; rw [up _ _ _ ht]; done)
      | (cases hs; simp only [up _ _ _ ht]; done)
      | (cases hs
         have hu := fun hh : t = i => ht hh.symm
         simp only [upd_thr, leave, if_neg hu]
         (repeat' split) <;> rfl)
      | (unfold startWrite at hs; split at hs <;> cases hs; rw [up _ _ _ ht]; done)

/-- A callback that waits for a lock that its own thread holds. -/
def Stuck (s : St) (t : Nat) : Prop :=
  (∃ cb r, (s.thr t).pc = .cbLock cb t r) ∨ ∃ u r, (s.thr t).pc = .cbReg u r

theorem Stuck.step {n : Nat} {s s' : St} {t : Nat} {e : Ev} (h : Inv n s) (hk : Stuck s t) (hs : step s e = .ok s') :
    (s'.thr t).pc = (s.thr t).pc := by
  have hn : (s.thr t).pc ≠ .idle := by rcases hk with ⟨cb, r, hk⟩ | ⟨u, r, hk⟩ <;> rw [hk] <;> intro hh <;> cases hh
  cases e with
  | call i op =>
    by_cases hi : i = t
    · subst hi; simp only [PSync.step, if_neg hn] at hs; cases hs; rfl
    · exact other hs hi
  | iterate i op =>
    by_cases hi : i = t
    · subst hi; simp only [PSync.step, if_neg hn] at hs; cases hs; rfl
    · exact other hs hi
  | exit i =>
    by_cases hi : i = t
    · subst hi; simp only [PSync.step, if_neg hn] at hs; cases hs; rfl
    · exact other hs hi
  | go i =>
    by_cases hi : i = t
    · subst hi
      simp only [PSync.step, PSync.go] at hs
      rcases hk with ⟨cb, r, hk⟩ | ⟨u, r, hk⟩
      · have hl : (s.thr i).lock = some i := (h.fl i i).mpr (by rw [hk]; rfl)
        simp only [hk, hl] at hs
        cases hs; rw [hk]
      · have hl : s.lock = some i := (h.tl i).mp (by rw [hk]; rfl)
        simp only [hk, hl] at hs
        cases hs; rw [hk]
    · exact other hs hi

theorem Stuck.run {n : Nat} {t : Nat} : ∀ {es : List Ev} {s s' : St}, Inv n s → Stuck s t → Disciplined n s es →
    runAll PSync.step s es = .ok s' → (s'.thr t).pc = (s.thr t).pc
  | [], s, s', _, _, _, hs => by cases hs; rfl
  | e :: r, s, s', h, hk, hd, hs => by
    obtain ⟨s1, e1, h1⟩ := h.step hd.1
    unfold runAll at hs
    rw [e1] at hs
    have hp := hk.step h e1
    have hk1 : Stuck s1 t := by unfold Stuck; rw [hp]; exact hk
    rw [Stuck.run h1 hk1 (hd.2 s1 e1) hs, hp]

theorem plain_run {n : Nat} : ∀ {es : List Ev} {s s' : St}, Inv n s → (∀ i, plain (s.thr i).pc = true) → Disciplined n s es →
    (∀ t cb, Ev.iterate t cb ∈ es → cb = .none) → runAll step s es = .ok s' → Inv n s' ∧ ∀ i, plain (s'.thr i).pc = true
  | [], s, s', h, hp, _, _, hs => by cases hs; exact ⟨h, hp⟩
  | e :: r, s, s', h, hp, hd, hc, hs => by
    obtain ⟨s1, e1, h1⟩ := h.step hd.1
    unfold runAll at hs
    rw [e1] at hs
    refine plain_run h1 ?_ (hd.2 s1 e1) (fun t cb hm => hc t cb (.tail _ hm)) hs
    intro i
    have oth : ∀ t, (match e with | .call j _ | .iterate j _ | .exit j | .go j => j = t) → i ≠ t → plain (s1.thr i).pc = true := by
      intro t ht hi
      rw [other e1 (by cases e <;> (dsimp only at ht ⊢; rw [ht]; exact fun hh => hi hh.symm))]
      exact hp i
    cases e with
    | go t =>
      by_cases hi : i = t
      · subst hi
        obtain ⟨s2, e2, _, hp2, _⟩ := go_total h hp i
        simp only [step] at e1
        rw [e1] at e2
        cases e2
        exact hp2 i
      · exact oth t rfl hi
    | call t op =>
      by_cases hi : i = t
      · subst hi
        simp only [step] at e1
        split at e1
        · unfold call at e1
          cases op <;> dsimp only at e1 <;> (try split at e1) <;> (try unfold afterReady at e1) <;> (try dsimp only at e1) <;>
            (try split at e1) <;> cases e1 <;> simp [upd_thr, plain]
        · cases e1; exact hp i
      · exact oth t rfl hi
    | iterate t cb =>
      by_cases hi : i = t
      · subst hi
        have := hc i cb (.head _)
        subst this
        simp only [step] at e1
        split at e1 <;> cases e1
        · simp [upd_thr, plain]
        · exact hp i
      · exact oth t rfl hi
    | exit t =>
      by_cases hi : i = t
      · subst hi
        simp only [step] at e1
        split at e1
        · unfold startWrite at e1
          split at e1 <;> cases e1
          simp [upd_thr, plain]
        · cases e1; exact hp i
      · exact oth t rfl hi

end Rpp.PSync
