import Verif.Proof.PoolStep
import Verif.Spec.Sched

namespace Rpp

/-- A measure that every change makes smaller bounds the number of changes. -/
theorem changes_le {σ ε : Type} [DecidableEq σ] {step : σ → ε → Res σ} {I : σ → Prop} {P : ε → Prop}
    (h : ∀ s e, P e → I s → ∃ s', step s e = .ok s' ∧ I s') (m : σ → Nat)
    (hm : ∀ s e s', P e → I s → step s e = .ok s' → s' = s ∨ m s' < m s) :
    ∀ (es : List ε) (s : σ), (∀ e ∈ es, P e) → I s → changes step s es ≤ m s
  | [], s, _, _ => Nat.zero_le _
  | e :: r, s, hp, hs => by
    obtain ⟨s1, h2, h3⟩ := h s e (hp e (.head _)) hs
    have ih := changes_le h m hm r s1 (fun e he => hp e (.tail _ he)) h3
    unfold changes
    rw [h2]; dsimp only
    rcases hm s e s1 (hp e (.head _)) hs h2 with c | c
    · subst c; rw [if_pos rfl]; omega
    · split <;> omega

namespace Pool

/-- No submitting thread is busy with queue `i`. -/
def Quiet (i : Nat) (s : St) : Prop := ∀ (t : Nat) (u : Sub), s.subs[t]? = some u → u.idx ≠ some i

/-- Any event but a submission to queue `i` and the destructor. -/
def Other (i : Nat) (e : Ev) : Prop := e ≠ .shutdown ∧ ∀ t j, e ≠ .submit t j i

/-- The steps worker still has to make at each place. -/
def W.cost : W → Nat
  | .run _ => 4 | .lock => 3 | .check => 2 | .check2 => 1 | _ => 0

/-- The steps worker `i` has to make until it has taken `k` jobs. -/
def left (i k : Nat) (s : St) : Nat := match s.qs[i]? with
  | none => 0
  | some q => if k ≤ q.taken.length then 0 else 4 * (k - q.taken.length - 1) + q.w.cost

theorem live_step {s s' : St} {e : Ev} (he : e ≠ .shutdown) (h : s.dtor = .live) (hs : step s e = .ok s') :
    s'.dtor = .live := by
  cases e <;> unfold step at hs <;> dsimp only at hs <;> (try rw [h] at hs) <;> (try dsimp only at hs) <;>
    (repeat' split at hs) <;> cases hs <;> first | exact h | rfl | exact absurd rfl he

theorem quiet_step {i : Nat} {s s' : St} {e : Ev} (he : Other i e) (h : Quiet i s) (hs : step s e = .ok s') :
    Quiet i s' := by
  cases e with
  | submit t j k =>
    unfold step at hs; dsimp only at hs
    split at hs
    · rename_i hc
      split at hs
      · cases hs
      · split at hs
        · cases hs
          intro v u hv
          rcases getset hc.1 hv with ⟨_, b⟩ | ⟨_, b⟩
          · subst b
            intro c; simp [Sub.idx] at c; subst c; exact he.2 t j rfl
          · exact h v u b
        · cases hs; exact h
    · cases hs; exact h
  | sub t =>
    unfold step at hs; dsimp only at hs
    have key : ∀ (u u' : Sub) , s.subs[t]? = some u → s'.subs = s.subs.set t u' →
        (u'.idx = none ∨ u'.idx = u.idx) → Quiet i s' := by
      intro u u' hu e hi v y hv
      rw [e] at hv
      rcases getset hu hv with ⟨_, b⟩ | ⟨_, b⟩
      · subst b
        rcases hi with c | c
        · rw [c]; simp
        · rw [c]; exact h t _ hu
      · exact h v y b
    split at hs
    · rename_i c j hu
      (repeat' split at hs) <;> cases hs
      · exact key _ _ hu rfl (.inr rfl)
      · exact h
    · rename_i c j hu
      (repeat' split at hs) <;> cases hs
      exact key _ _ hu rfl (.inr rfl)
    · rename_i c hu
      (repeat' split at hs) <;> cases hs
      exact key _ _ hu rfl (.inr rfl)
    · rename_i c hu
      (repeat' split at hs) <;> cases hs
      exact key _ _ hu rfl (.inl rfl)
    · cases hs; exact h
  | work k => unfold step at hs; dsimp only at hs; (repeat' split at hs) <;> cases hs <;> exact h
  | spurious k => unfold step at hs; dsimp only at hs; (repeat' split at hs) <;> cases hs <;> exact h
  | shutdown => exact absurd rfl he.1
  | dtor => unfold step at hs; dsimp only at hs; (repeat' split at hs) <;> cases hs <;> exact h

theorem left_set {s : St} {i k c : Nat} {a x : Q} (h : s.qs[c]? = some x) (hk : c ≠ i) (s' : St)
    (e : s'.qs = s.qs.set c a) : left i k s' = left i k s := by
  unfold left
  rw [e, getElem?_set_of h, if_neg (fun d => hk d.symm)]

/-- While queue `i` is left alone, each step of its worker brings it nearer to the next job. -/
theorem left_step {i k : Nat} {s s' : St} {e : Ev} (he : Other i e) (hi : Inv s) (hq : Quiet i s)
    (hl : s.dtor = .live) (hk : ∀ q, s.qs[i]? = some q → k ≤ q.pushed.length) (hs : step s e = .ok s') :
    left i k s' ≤ left i k s - (if e == .work i then 1 else 0) := by
  have hshut : ¬ s.shutdown := fun c => c hl
  cases e with
  | submit t j c =>
    rw [if_neg (by simp)]
    unfold step at hs; dsimp only at hs
    (repeat' split at hs) <;> cases hs <;> exact Nat.le_refl _
  | sub t =>
    rw [if_neg (by simp)]
    unfold step at hs; dsimp only at hs
    split at hs
    · rename_i c j hu
      have hc : c ≠ i := fun d => hq t _ hu (by rw [d]; rfl)
      (repeat' split at hs) <;> cases hs
      · rename_i q hx _; exact Nat.le_of_eq (left_set hx hc _ rfl)
      · exact Nat.le_refl _
    · rename_i c j hu
      have hc : c ≠ i := fun d => hq t _ hu (by rw [d]; rfl)
      (repeat' split at hs) <;> cases hs
      rename_i q hx; exact Nat.le_of_eq (left_set hx hc _ rfl)
    · rename_i c hu
      have hc : c ≠ i := fun d => hq t _ hu (by rw [d]; rfl)
      (repeat' split at hs) <;> cases hs
      rename_i q hx; exact Nat.le_of_eq (left_set hx hc _ rfl)
    · rename_i c hu
      have hc : c ≠ i := fun d => hq t _ hu (by rw [d]; rfl)
      (repeat' split at hs) <;> cases hs
      rename_i q hx; exact Nat.le_of_eq (left_set hx hc _ rfl)
    · cases hs; exact Nat.le_refl _
  | shutdown => exact absurd rfl he.1
  | dtor =>
    rw [if_neg (by simp)]
    unfold step at hs; dsimp only at hs
    rw [hl] at hs; cases hs; exact Nat.le_refl _
  | spurious c =>
    rw [if_neg (by simp)]
    unfold step at hs; dsimp only at hs
    split at hs
    · rename_i q hx
      split at hs
      · rename_i hw
        cases hs
        by_cases d : c = i
        · subst d
          unfold left
          dsimp only
          rw [getElem?_set_of hx, if_pos rfl, hx]
          dsimp only
          split
          · omega
          · rename_i hlt
            exfalso
            have Q := hi.q c q hx
            have := hk q hx
            have hf := congrArg List.length Q.fifo
            rw [List.length_append] at hf
            obtain ⟨t, ht⟩ := Q.awake hw (fun e => by rw [e] at hf; simp at hf; omega)
            exact hq t _ ht rfl
        · exact Nat.le_of_eq (left_set hx d _ rfl)
      · cases hs; exact Nat.le_refl _
    · cases hs; exact Nat.le_refl _
  | work c =>
    by_cases d : c = i
    · subst d
      rw [if_pos (by simp)]
      unfold step at hs; dsimp only at hs
      split at hs
      · rename_i q hx
        have Q := hi.q c q hx
        have hkq := hk q hx
        have hf := congrArg List.length Q.fifo
        rw [List.length_append] at hf
        unfold left
        rw [hx]
        split at hs
        · rename_i hw
          have hn : q.held = none := by
            cases hh : q.held with
            | none => rfl
            | some o => cases o with
              | worker => have := Q.worker.mp hh; rw [hw] at this; simp at this
              | sub t =>
                obtain ⟨u, a, b⟩ := (Q.sub t).mp hh
                exact absurd (by cases u <;> simp [Sub.holds] at b <;> simp [Sub.idx, b]) (hq t u a)
              | dtor => have := Q.dtor.mp hh; rw [hl] at this; cases this
          rw [if_pos hn] at hs; cases hs
          dsimp only
          rw [getElem?_set_of hx, if_pos rfl]; dsimp only
          rw [hw]
          split
          · exact Nat.zero_le _
          · simp only [W.cost]; omega
        · rename_i hw
          split at hs
          · rename_i hc
            cases hs
            dsimp only
            rw [getElem?_set_of hx, if_pos rfl]; dsimp only
            split
            · exact Nat.zero_le _
            · rw [hc.1] at hf; simp at hf; omega
          · cases hs
            dsimp only
            rw [getElem?_set_of hx, if_pos rfl]; dsimp only
            rw [hw]
            split
            · exact Nat.zero_le _
            · simp only [W.cost]; omega
        · rename_i hw
          rw [if_neg hshut] at hs
          split at hs
          · cases hs
          · rename_i j r hj
            cases hs
            dsimp only
            rw [getElem?_set_of hx, if_pos rfl]; dsimp only
            rw [hw, List.length_append]
            simp only [List.length_singleton]
            split
            · exact Nat.zero_le _
            · rw [if_neg (by omega)]
              simp only [W.cost]; omega
        · rename_i j hw
          cases hs
          dsimp only
          rw [getElem?_set_of hx, if_pos rfl]; dsimp only
          rw [hw]
          split
          · exact Nat.zero_le _
          · simp only [W.cost]; omega
        · rename_i h1 h2 h3 h4
          cases hs
          rw [hx]; dsimp only
          split
          · exact Nat.zero_le _
          · have : q.w = .asleep ∨ q.w = .exit := by
              cases hw : q.w with
              | lock => exact absurd hw h1
              | check => exact absurd hw h2
              | check2 => exact absurd hw h3
              | run j => exact absurd hw (h4 j)
              | asleep => exact .inl rfl
              | exit => exact .inr rfl
            rcases this with hw | hw
            · obtain ⟨t, ht⟩ := Q.awake hw (fun e => by rw [e] at hf; simp at hf; omega)
              exact absurd rfl (hq t _ ht)
            · exact absurd (Q.exit hw) hshut
      · rename_i hx
        cases hs
        unfold left; rw [hx]; exact Nat.zero_le _
    · have : (Ev.work c == Ev.work i) = false := by simp [d]
      rw [this]
      unfold step at hs; dsimp only at hs
      split at hs
      · rename_i q hx
        (repeat' split at hs) <;> cases hs <;>
          first | exact Nat.le_refl _ | exact Nat.le_of_eq (left_set hx d _ rfl)
      · cases hs; exact Nat.le_refl _

/-- The queue's record of what was put in does not change while it is left alone. -/
theorem pushed_step {i : Nat} {s s' : St} {e : Ev} (hq : Quiet i s) (hs : step s e = .ok s')
    (l : List Nat) (h : ∀ q, s.qs[i]? = some q → q.pushed = l) : ∀ q, s'.qs[i]? = some q → q.pushed = l := by
  have key : ∀ (c : Nat) (x a : Q), s.qs[c]? = some x → s'.qs = s.qs.set c a →
      (c = i → a.pushed = x.pushed) → ∀ q, s'.qs[i]? = some q → q.pushed = l := by
    intro c x a hx e ha q hq
    rw [e] at hq
    rcases getset hx hq with ⟨b, d⟩ | ⟨_, d⟩
    · subst d; rw [ha b.symm]; exact h x (b ▸ hx)
    · exact h q d
  cases e with
  | submit t j c =>
    unfold step at hs; dsimp only at hs
    (repeat' split at hs) <;> cases hs <;> exact h
  | sub t =>
    unfold step at hs; dsimp only at hs
    split at hs
    · rename_i c j hu
      (repeat' split at hs) <;> cases hs
      · rename_i q hx _; exact key c q _ hx rfl (fun _ => rfl)
      · exact h
    · rename_i c j hu
      have hc : c ≠ i := fun d => hq t _ hu (by rw [d]; rfl)
      (repeat' split at hs) <;> cases hs
      rename_i q hx; exact key c q _ hx rfl (fun d => absurd d hc)
    · rename_i c hu
      (repeat' split at hs) <;> cases hs
      rename_i q hx; exact key c q _ hx rfl (fun _ => rfl)
    · rename_i c hu
      (repeat' split at hs) <;> cases hs
      rename_i q hx; exact key c q _ hx rfl (fun _ => rfl)
    · cases hs; exact h
  | shutdown =>
    unfold step at hs; dsimp only at hs
    (repeat' split at hs) <;> cases hs <;> exact h
  | dtor =>
    unfold step at hs; dsimp only at hs
    split at hs
    · rename_i c _
      (repeat' split at hs) <;> cases hs
      · rename_i q hx _; exact key c q _ hx rfl (fun _ => rfl)
      · exact h
    · rename_i c _
      (repeat' split at hs) <;> cases hs
      rename_i q hx; exact key c q _ hx rfl (fun _ => rfl)
    · rename_i c _
      (repeat' split at hs) <;> cases hs
      rename_i q hx; exact key c q _ hx rfl (fun _ => rfl)
    · (repeat' split at hs) <;> cases hs <;> exact h
    · cases hs; exact h
  | spurious c =>
    unfold step at hs; dsimp only at hs
    split at hs
    · rename_i q hx
      (repeat' split at hs) <;> cases hs <;> first | exact h | exact key c q _ hx rfl (fun _ => rfl)
    · cases hs; exact h
  | work c =>
    unfold step at hs; dsimp only at hs
    split at hs
    · rename_i q hx
      (repeat' split at hs) <;> cases hs <;> first | exact h | exact key c q _ hx rfl (fun _ => rfl)
    · cases hs; exact h

/-! ### Shutting down -/

/-- The steps that are left for a worker, a submitting thread and the destructor when shutting down. -/
def W.rest : W → Nat
  | .asleep => 5 | .run _ => 5 | .lock => 4 | .check => 3 | .check2 => 2 | .exit => 0
def Sub.rest : Sub → Nat
  | .lock .. => 4 | .push .. => 3 | .signal _ => 2 | .unlock _ => 1 | .idle => 0
def Dtor.rest (n : Nat) : Dtor → Nat
  | .live => 3 * n + 3
  | .lock i => 3 * (n - i) + 2
  | .signal i => 3 * (n - i) + 1
  | .unlock i => 3 * (n - i)
  | .join => 2
  | .gone => 0

def rest (s : St) : Nat :=
  (s.qs.map fun q => q.w.rest).sum + (s.subs.map Sub.rest).sum + s.dtor.rest s.qs.length

def NotSubmit (e : Ev) : Prop := ∀ t j i, e ≠ .submit t j i

theorem rest_step {s s' : St} {e : Ev} (hi : Inv s) (he : NotSubmit e) (hd : s.shutdown)
    (hs : step s e = .ok s') : s' = s ∨ rest s' < rest s := by
  have hwake : ∀ w, (wakeUp w).rest ≤ w.rest := by intro w; cases w <;> simp [wakeUp, W.rest]
  have r1 : W.rest .asleep = 5 := rfl
  have r2 : ∀ j, W.rest (.run j) = 5 := fun _ => rfl
  have r3 : W.rest .lock = 4 := rfl
  have r4 : W.rest .check = 3 := rfl
  have r5 : W.rest .check2 = 2 := rfl
  have r6 : W.rest .exit = 0 := rfl
  cases e with
  | submit t j i => exact absurd rfl (he t j i)
  | shutdown =>
    unfold step at hs; dsimp only at hs
    rw [if_neg hd] at hs; cases hs; exact .inl rfl
  | sub t =>
    unfold step at hs; dsimp only at hs
    split at hs
    · rename_i i j hu
      (repeat' split at hs) <;> cases hs
      · rename_i q hx _
        right; unfold rest; dsimp only
        have h1 := sum_set (fun q : Q => q.w.rest) s.qs i { q with held := some (.sub t) } q hx
        have h2 := sum_set Sub.rest s.subs t (.push i j) _ hu
        rw [List.length_set]
        simp only [Sub.rest] at h2
        dsimp only at h1; omega
      · exact .inl rfl
    · rename_i i j hu
      (repeat' split at hs) <;> cases hs
      rename_i q hx
      right; unfold rest; dsimp only
      have h1 := sum_set (fun q : Q => q.w.rest) s.qs i { q with jobs := q.jobs ++ [j], pushed := q.pushed ++ [j] } q hx
      have h2 := sum_set Sub.rest s.subs t (.signal i) _ hu
      rw [List.length_set]
      simp only [Sub.rest] at h2
      dsimp only at h1; omega
    · rename_i i hu
      (repeat' split at hs) <;> cases hs
      rename_i q hx
      right; unfold rest; dsimp only
      have h1 := sum_set (fun q : Q => q.w.rest) s.qs i { q with w := wakeUp q.w } q hx
      have h2 := sum_set Sub.rest s.subs t (.unlock i) _ hu
      have h3 := hwake q.w
      rw [List.length_set]
      simp only [Sub.rest] at h2
      dsimp only at h1; omega
    · rename_i i hu
      (repeat' split at hs) <;> cases hs
      rename_i q hx
      right; unfold rest; dsimp only
      have h1 := sum_set (fun q : Q => q.w.rest) s.qs i { q with held := none } q hx
      have h2 := sum_set Sub.rest s.subs t .idle _ hu
      rw [List.length_set]
      simp only [Sub.rest] at h2
      dsimp only at h1; omega
    · cases hs; exact .inl rfl
  | spurious i =>
    unfold step at hs; dsimp only at hs
    split at hs
    · rename_i q hx
      split at hs <;> cases hs
      · rename_i hw
        right; unfold rest; dsimp only
        have h1 := sum_set (fun q : Q => q.w.rest) s.qs i { q with w := .lock } q hx
        rw [List.length_set]
        dsimp only at h1; rw [hw] at h1; omega
      · exact .inl rfl
    · cases hs; exact .inl rfl
  | work i =>
    unfold step at hs; dsimp only at hs
    split at hs
    · rename_i q hx
      have h1 := fun a => sum_set (fun q : Q => q.w.rest) s.qs i a q hx
      split at hs
      · rename_i hw
        split at hs <;> cases hs
        · right; unfold rest; dsimp only
          have h1 := h1 { q with held := some .worker, w := .check }
          rw [List.length_set]
          dsimp only at h1; rw [hw] at h1; omega
        · exact .inl rfl
      · rename_i hw
        split at hs
        · rename_i hc; exact absurd hd hc.2
        · cases hs
          right; unfold rest; dsimp only
          have h1 := h1 { q with w := .check2 }
          rw [List.length_set]
          dsimp only at h1; rw [hw] at h1; omega
      · rename_i hw
        rw [if_pos hd] at hs
        cases hs
        right; unfold rest; dsimp only
        have h1 := h1 { q with held := none, w := .exit }
        rw [List.length_set]
        dsimp only at h1; rw [hw] at h1; omega
      · rename_i j hw
        have r2 := r2 j
        cases hs
        right; unfold rest; dsimp only
        have h1 := h1 { q with w := .lock }
        rw [List.length_set]
        dsimp only at h1; rw [hw] at h1; omega
      · cases hs; exact .inl rfl
    · cases hs; exact .inl rfl
  | dtor =>
    unfold step at hs; dsimp only at hs
    split at hs
    · rename_i i hdt
      have hlt := hi.dlt i (.inl hdt)
      (repeat' split at hs) <;> cases hs
      · rename_i q hx _
        right; unfold rest; dsimp only
        have h1 := sum_set (fun q : Q => q.w.rest) s.qs i { q with held := some .dtor } q hx
        rw [List.length_set, hdt]
        simp only [Dtor.rest]
        dsimp only at h1; omega
      · exact .inl rfl
    · rename_i i hdt
      have hlt := hi.dlt i (.inr (.inl hdt))
      (repeat' split at hs) <;> cases hs
      rename_i q hx
      right; unfold rest; dsimp only
      have h1 := sum_set (fun q : Q => q.w.rest) s.qs i { q with w := wakeUp q.w } q hx
      have h3 := hwake q.w
      rw [List.length_set, hdt]
      simp only [Dtor.rest]
      dsimp only at h1; omega
    · rename_i i hdt
      have hlt := hi.dlt i (.inr (.inr hdt))
      (repeat' split at hs) <;> cases hs
      rename_i q hx
      right; unfold rest; dsimp only
      have h1 := sum_set (fun q : Q => q.w.rest) s.qs i { q with held := none } q hx
      rw [List.length_set, hdt]
      unfold nextDtor
      split
      · simp only [Dtor.rest]
        dsimp only at h1; omega
      · simp only [Dtor.rest]
        dsimp only at h1; omega
    · rename_i hdt
      split at hs <;> cases hs
      · right; unfold rest; dsimp only; rw [hdt]; simp only [Dtor.rest]; omega
      · exact .inl rfl
    · cases hs; exact .inl rfl

theorem shutdown_step {s s' : St} {e : Ev} (h : s.shutdown) (hs : step s e = .ok s') : s'.shutdown := by
  unfold St.shutdown at *
  cases e <;> unfold step at hs <;> dsimp only at hs <;> (repeat' split at hs) <;>
    cases hs <;> first | exact h | (simp; done) | (unfold nextDtor; split <;> simp)

/-- A step of one of the threads itself, not one that comes from outside. -/
def Goes : Ev → Prop
  | .sub _ => True
  | .work _ => True
  | .dtor => True
  | _ => False


/-- While shutting down, somebody can always go on. -/
theorem can_step {s : St} (hi : Inv s) (hd : s.shutdown) (hg : s.dtor ≠ .gone) :
    ∃ e s', Goes e ∧ step s e = .ok s' ∧ s' ≠ s := by
  -- the holder of a mutex can go on
  have free : ∀ (i : Nat) (q : Q), s.qs[i]? = some q → q.held ≠ none →
      ∃ e s', Goes e ∧ step s e = .ok s' ∧ s' ≠ s := by
    intro i q hx hh
    have hQ := hi.q i q hx
    cases ho : q.held with
    | none => exact absurd ho hh
    | some o => cases o with
      | worker =>
        rcases hQ.worker.mp ho with hw | hw
        · refine ⟨.work i, { s with qs := s.qs.set i { q with w := .check2 } }, by simp [Goes], ?_, ?_⟩
          · unfold step; dsimp only; rw [hx]; dsimp only; rw [hw]; dsimp only
            rw [if_neg (fun c => c.2 hd)]
          · intro c
            have := congrArg (fun s => s.qs[i]?) c
            dsimp only at this
            rw [getElem?_set_of hx, if_pos rfl, hx] at this
            have := congrArg Q.w (Option.some.inj this)
            rw [hw] at this; cases this
        · refine ⟨.work i, { s with qs := s.qs.set i { q with held := none, w := .exit } },
            by simp [Goes], ?_, ?_⟩
          · unfold step; dsimp only; rw [hx]; dsimp only; rw [hw]; dsimp only
            rw [if_pos hd]
          · intro c
            have := congrArg (fun s => s.qs[i]?) c
            dsimp only at this
            rw [getElem?_set_of hx, if_pos rfl, hx] at this
            have := congrArg Q.w (Option.some.inj this)
            rw [hw] at this; cases this
      | sub t =>
        obtain ⟨u, hu, hu2⟩ := (hQ.sub t).mp ho
        have hne : ∀ (v : Sub) (qs : List Q), v ≠ u → ({ s with qs := qs, subs := s.subs.set t v } : St) ≠ s := by
          intro v qs hv c
          have := congrArg (fun s => s.subs[t]?) c
          dsimp only at this
          rw [getElem?_set_of hu, if_pos rfl, hu] at this
          exact hv (Option.some.inj this)
        cases u with
        | idle => cases hu2
        | lock a b => cases hu2
        | push a b =>
          simp [Sub.holds] at hu2; subst hu2
          refine ⟨.sub t, _, by simp [Goes], by unfold step; dsimp only; rw [hu]; dsimp only; rw [hx], ?_⟩
          exact hne _ _ (by simp)
        | signal a =>
          simp [Sub.holds] at hu2; subst hu2
          refine ⟨.sub t, _, by simp [Goes], by unfold step; dsimp only; rw [hu]; dsimp only; rw [hx], ?_⟩
          exact hne _ _ (by simp)
        | unlock a =>
          simp [Sub.holds] at hu2; subst hu2
          refine ⟨.sub t, _, by simp [Goes], by unfold step; dsimp only; rw [hu]; dsimp only; rw [hx], ?_⟩
          exact hne _ _ (by simp)
      | dtor =>
        have hdt := hQ.dtor.mp ho
        cases hc : s.dtor with
        | live => exact absurd hc hd
        | lock a => rw [hc] at hdt; cases hdt
        | join => rw [hc] at hdt; cases hdt
        | gone => rw [hc] at hdt; cases hdt
        | signal a =>
          rw [hc] at hdt; simp [Dtor.holds] at hdt; subst hdt
          refine ⟨.dtor, _, by simp [Goes], by unfold step; dsimp only; rw [hc]; dsimp only; rw [hx], ?_⟩
          intro c
          have := congrArg St.dtor c
          dsimp only at this; rw [hc] at this; cases this
        | unlock a =>
          rw [hc] at hdt; simp [Dtor.holds] at hdt; subst hdt
          refine ⟨.dtor, _, by simp [Goes], by unfold step; dsimp only; rw [hc]; dsimp only; rw [hx], ?_⟩
          intro c
          have := congrArg St.dtor c
          dsimp only at this; rw [hc] at this; unfold nextDtor at this; split at this <;> cases this
  by_cases hh : ∃ (i : Nat) (q : Q), s.qs[i]? = some q ∧ q.held ≠ none
  · obtain ⟨i, q, hx, h1⟩ := hh
    exact free i q hx h1
  · have hn : ∀ (i : Nat) (q : Q), s.qs[i]? = some q → q.held = none := fun i q hx =>
      Classical.byContradiction fun c => hh ⟨i, q, hx, c⟩
    cases hc : s.dtor with
    | live => exact absurd hc hd
    | gone => exact absurd hc hg
    | lock i =>
      have hx := List.getElem?_eq_getElem (hi.dlt i (.inl hc))
      refine ⟨.dtor, _, by simp [Goes],
        by unfold step; dsimp only; rw [hc]; dsimp only; rw [hx]; dsimp only; rw [if_pos (hn i _ hx)], ?_⟩
      intro c
      have := congrArg St.dtor c
      dsimp only at this; rw [hc] at this; cases this
    | signal i =>
      have hx := List.getElem?_eq_getElem (hi.dlt i (.inr (.inl hc)))
      have := (hi.q i _ hx).dtor.mpr (by rw [hc]; rfl)
      rw [hn i _ hx] at this; cases this
    | unlock i =>
      have hx := List.getElem?_eq_getElem (hi.dlt i (.inr (.inr hc)))
      have := (hi.q i _ hx).dtor.mpr (by rw [hc]; rfl)
      rw [hn i _ hx] at this; cases this
    | join =>
      by_cases h1 : ∀ u ∈ s.subs, u = .idle
      · by_cases h2 : ∀ q ∈ s.qs, q.w = .exit
        · refine ⟨.dtor, _, by simp [Goes], by unfold step; dsimp only; rw [hc]; dsimp only; rw [if_pos ⟨h2, h1⟩], ?_⟩
          intro c
          have := congrArg St.dtor c
          dsimp only at this; rw [hc] at this; cases this
        · have ⟨q, hq, hw⟩ : ∃ q ∈ s.qs, q.w ≠ .exit := Classical.byContradiction fun c =>
            h2 fun q hq => Classical.byContradiction fun d => c ⟨q, hq, d⟩
          obtain ⟨i, hx⟩ := List.mem_iff_getElem?.mp hq
          have hQ := hi.q i q hx
          have hne : ∀ (a : Q), a.w ≠ q.w → ({ s with qs := s.qs.set i a } : St) ≠ s := by
            intro a ha c
            have := congrArg (fun s => s.qs[i]?) c
            dsimp only at this
            rw [getElem?_set_of hx, if_pos rfl, hx] at this
            exact ha (congrArg Q.w (Option.some.inj this))
          cases hw2 : q.w with
          | exit => exact absurd hw2 hw
          | lock =>
            refine ⟨.work i, _, by simp [Goes], by unfold step; dsimp only; rw [hx]; dsimp only; rw [hw2]; dsimp only; rw [if_pos (hn i q hx)], ?_⟩
            exact hne _ (by rw [hw2]; simp)
          | check => have := hQ.worker.mpr (.inl hw2); rw [hn i q hx] at this; cases this
          | check2 => have := hQ.worker.mpr (.inr hw2); rw [hn i q hx] at this; cases this
          | run j =>
            refine ⟨.work i, _, by simp [Goes], by unfold step; dsimp only; rw [hx]; dsimp only; rw [hw2], ?_⟩
            exact hne _ (by rw [hw2]; simp)
          | asleep =>
            have := hQ.down hw2 hd
            rw [hc] at this; simp only [Dtor.next] at this
            have := (List.getElem?_eq_some_iff.mp hx).1
            omega
      · have ⟨u, hq, hw⟩ : ∃ u ∈ s.subs, u ≠ .idle := Classical.byContradiction fun c =>
          h1 fun q hq => Classical.byContradiction fun d => c ⟨q, hq, d⟩
        obtain ⟨t, hu⟩ := List.mem_iff_getElem?.mp hq
        have holder : ∀ i, u.holds = some i → False := by
          intro i hi2
          have hlt : i < s.qs.length := hi.idx t u i hu (by cases u <;> simp [Sub.holds] at hi2 <;> simp [Sub.idx, hi2])
          have hx := List.getElem?_eq_getElem hlt
          have := ((hi.q i _ hx).sub t).mpr ⟨u, hu, hi2⟩
          rw [hn i _ hx] at this; cases this
        cases u with
        | idle => exact absurd rfl hw
        | push i j => exact (holder i rfl).elim
        | signal i => exact (holder i rfl).elim
        | unlock i => exact (holder i rfl).elim
        | lock i j =>
          have hx := List.getElem?_eq_getElem (hi.idx t _ i hu rfl)
          refine ⟨.sub t, _, by simp [Goes], by unfold step; dsimp only; rw [hu]; dsimp only; rw [hx]; dsimp only; rw [if_pos (hn i _ hx)], ?_⟩
          intro c
          have := congrArg (fun s => s.subs[t]?) c
          dsimp only at this
          rw [getElem?_set_of hu, if_pos rfl, hu] at this
          cases Option.some.inj this

end Pool
end Rpp
