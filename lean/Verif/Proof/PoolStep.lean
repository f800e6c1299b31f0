import Verif.Proof.Pool

namespace Rpp
namespace Pool

/-- The holder of a mutex among the submitting threads, after thread `t` moved. -/
theorem holds_set {s : St} {t : Nat} {u u' : Sub} (hu : s.subs[t]? = some u) (v i : Nat) :
    (∃ y, (s.subs.set t u')[v]? = some y ∧ y.holds = some i) ↔
      (v = t ∧ u'.holds = some i) ∨ (v ≠ t ∧ ∃ y, s.subs[v]? = some y ∧ y.holds = some i) := by
  rw [getElem?_set_of hu]
  by_cases c : v = t
  · rw [if_pos c]
    constructor
    · rintro ⟨y, hy, hy2⟩; injection hy with hy; subst hy; exact .inl ⟨c, hy2⟩
    · rintro (⟨_, h⟩ | ⟨h, _⟩)
      · exact ⟨u', rfl, h⟩
      · exact absurd c h
  · rw [if_neg c]
    constructor
    · rintro h; exact .inr ⟨c, h⟩
    · rintro (⟨h, _⟩ | ⟨_, h⟩)
      · exact absurd h c
      · exact h

theorem sub_inv (s : St) (t : Nat) (h : Inv s) : ∃ s', step s (.sub t) = .ok s' ∧ Inv s' := by
  unfold step; dsimp only
  split
  · -- lock
    rename_i i j hu
    have hil := h.idx t _ i hu rfl
    have hq := List.getElem?_eq_getElem hil
    generalize s.qs[i] = q at hq
    rw [hq]; dsimp only
    have Q := h.q i q hq
    split
    · rename_i hn
      refine ⟨_, rfl, h.both hq hu (by simp) rfl rfl rfl rfl rfl (fun j => rfl) ?_ ?_ ?_ ?_⟩
      · intro k hk; simp [Sub.holds, Ne.symm hk]
      · simp
      · intro k hk; simp [Sub.idx] at hk; exact hk.symm
      · have hw : ¬ (q.w = .check ∨ q.w = .check2) := fun c => by
          have := Q.worker.mpr c; rw [hn] at this; cases this
        refine ⟨Q.fifo, by simpa using hw, ?_, ?_, ?_, Q.next, ?_, Q.exit, Q.last⟩
        · intro v
          dsimp only
          rw [holds_set hu]
          constructor
          · intro c; injection c with c; injection c with c; exact .inl ⟨c.symm, rfl⟩
          · rintro (⟨c, _⟩ | ⟨c, d⟩)
            · rw [c]
            · have := (Q.sub v).mpr d; rw [hn] at this; cases this
        · dsimp only
          constructor
          · intro c; cases c
          · intro c; have := Q.dtor.mpr c; rw [hn] at this; cases this
        · intro a b
          obtain ⟨v, hv⟩ := Q.awake a b
          have := (Q.sub v).mpr ⟨_, hv, rfl⟩
          rw [hn] at this; cases this
        · dsimp only; rw [List.length_set]; exact Q.down
    · exact ⟨s, rfl, h⟩
  · -- push
    rename_i i j hu
    have hil := h.idx t _ i hu rfl
    have hq := List.getElem?_eq_getElem hil
    generalize s.qs[i] = q at hq
    rw [hq]; dsimp only
    have Q := h.q i q hq
    have hh := (Q.sub t).mpr ⟨_, hu, rfl⟩
    refine ⟨_, rfl, h.both hq hu (by simp) rfl rfl rfl rfl rfl ?_ ?_ ?_ ?_ ?_⟩
    · intro x
      dsimp only [Sub.hand]
      rw [List.count_append, List.count_singleton]
      simp [beq_iff_eq]
    · intro k hk; simp [Sub.holds, Ne.symm hk]
    · simp
    · intro k hk; simp [Sub.idx] at hk; exact hk.symm
    · have hw : ¬ (q.w = .check ∨ q.w = .check2) := fun c => by
        have := Q.worker.mpr c; rw [hh] at this; cases this
      refine ⟨?_, Q.worker, ?_, Q.dtor, ?_, ?_, ?_, Q.exit, Q.last⟩
      · dsimp only; rw [Q.fifo, List.append_assoc]
      · intro v
        dsimp only
        rw [holds_set hu, Q.sub v]
        constructor
        · intro c
          by_cases d : v = t
          · exact .inl ⟨d, rfl⟩
          · exact .inr ⟨d, c⟩
        · rintro (⟨c, _⟩ | ⟨c, d⟩)
          · subst c; exact ⟨_, hu, rfl⟩
          · exact d
      · intro _ _
        exact ⟨t, by dsimp only; rw [getElem?_set_of hu, if_pos rfl]⟩
      · intro c; exact absurd (Or.inr c) hw
      · dsimp only; rw [List.length_set]; exact Q.down
  · -- signal
    rename_i i hu
    have hil := h.idx t _ i hu rfl
    have hq := List.getElem?_eq_getElem hil
    generalize s.qs[i] = q at hq
    rw [hq]; dsimp only
    have Q := h.q i q hq
    have hh := (Q.sub t).mpr ⟨_, hu, rfl⟩
    refine ⟨_, rfl, h.both hq hu (by simp) rfl rfl rfl rfl rfl (fun j => rfl) ?_ ?_ ?_ ?_⟩
    · intro k hk; simp [Sub.holds, Ne.symm hk]
    · intro k hk c; injection c with c; exact hk c.symm
    · intro k hk; simp [Sub.idx] at hk; exact hk.symm
    · have hw : ¬ (q.w = .check ∨ q.w = .check2) := fun c => by
        have := Q.worker.mpr c; rw [hh] at this; cases this
      refine ⟨Q.fifo, ?_, ?_, Q.dtor, ?_, ?_, ?_, ?_, ?_⟩
      · dsimp only; rw [hh]
        cases hx : q.w <;> simp [wakeUp, hx] at hw ⊢
      · intro v
        dsimp only
        rw [holds_set hu, Q.sub v]
        constructor
        · intro c
          by_cases d : v = t
          · exact .inl ⟨d, rfl⟩
          · exact .inr ⟨d, c⟩
        · rintro (⟨c, _⟩ | ⟨c, d⟩)
          · subst c; exact ⟨_, hu, rfl⟩
          · exact d
      · intro c
        dsimp only at c
        cases hx : q.w <;> simp [wakeUp, hx] at c
      · intro c
        dsimp only at c
        cases hx : q.w <;> simp [wakeUp, hx] at c
        exact absurd (Or.inr hx) hw
      · intro c
        dsimp only at c
        cases hx : q.w <;> simp [wakeUp, hx] at c
      · intro c
        dsimp only at c
        cases hx : q.w <;> simp [wakeUp, hx] at c
        exact Q.exit hx
      · intro x c
        dsimp only at c
        cases hx : q.w <;> simp [wakeUp, hx] at c
        subst c
        exact Q.last _ hx
  · -- unlock
    rename_i i hu
    have hil := h.idx t _ i hu rfl
    have hq := List.getElem?_eq_getElem hil
    generalize s.qs[i] = q at hq
    rw [hq]; dsimp only
    have Q := h.q i q hq
    have hh := (Q.sub t).mpr ⟨_, hu, rfl⟩
    refine ⟨_, rfl, h.both hq hu (by simp) rfl rfl rfl rfl rfl (fun j => rfl) ?_ ?_ ?_ ?_⟩
    · intro k hk; simp [Sub.holds, Ne.symm hk]
    · simp
    · intro k hk; simp [Sub.idx] at hk
    · have hw : ¬ (q.w = .check ∨ q.w = .check2) := fun c => by
        have := Q.worker.mpr c; rw [hh] at this; cases this
      refine ⟨Q.fifo, by simpa using hw, ?_, ?_, ?_, Q.next, ?_, Q.exit, Q.last⟩
      · intro v
        dsimp only
        rw [holds_set hu]
        constructor
        · intro c; cases c
        · rintro (⟨_, c⟩ | ⟨c, d⟩)
          · cases c
          · have := (Q.sub v).mpr d; rw [hh] at this; injection this with this
            injection this with this; exact absurd this.symm c
      · dsimp only
        constructor
        · intro c; cases c
        · intro c; have := Q.dtor.mpr c; rw [hh] at this; cases this
      · intro a b
        obtain ⟨v, hv⟩ := Q.awake a b
        have := (Q.sub v).mpr ⟨_, hv, rfl⟩
        rw [hh] at this; injection this with this; injection this with this
        subst this
        rw [hu] at hv; cases hv
      · dsimp only; rw [List.length_set]; exact Q.down
  · exact ⟨s, rfl, h⟩

theorem work_inv (s : St) (i : Nat) (h : Inv s) : ∃ s', step s (.work i) = .ok s' ∧ Inv s' := by
  unfold step; dsimp only
  split
  · rename_i q hq
    have Q := h.q i q hq
    split
    · -- lock
      rename_i hw
      split
      · rename_i hn
        refine ⟨_, rfl, h.setq hq (by rw [hw]; simp) rfl rfl rfl rfl rfl rfl ?_⟩
        refine ⟨Q.fifo, by simp, ?_, ?_, by simp, by simp, by simp, by simp, by simp⟩
        · intro t
          rw [← Q.sub t, hn]; simp
        · rw [← Q.dtor, hn]; simp
      · exact ⟨s, rfl, h⟩
    · -- check
      rename_i hw
      have hh := Q.worker.mpr (.inl hw)
      split
      · rename_i hn
        refine ⟨_, rfl, h.setq hq (by rw [hw]; simp) rfl rfl rfl rfl rfl rfl ?_⟩
        refine ⟨Q.fifo, by simp, ?_, ?_, ?_, by simp, ?_, by simp, by simp⟩
        · intro t
          rw [← Q.sub t, hh]; simp
        · rw [← Q.dtor, hh]; simp
        · intro _ c; exact absurd hn.1 c
        · intro _ c; exact absurd c hn.2
      · rename_i hn
        refine ⟨_, rfl, h.setq hq (by rw [hw]; simp) rfl rfl rfl rfl rfl rfl ?_⟩
        refine ⟨Q.fifo, by simp [hh], Q.sub, Q.dtor, by simp, ?_, by simp, by simp, by simp⟩
        intro _
        rcases Classical.not_and_iff_not_or_not.mp hn with c | c
        · exact .inl c
        · exact .inr (Classical.not_not.mp c)
    · -- check2
      rename_i hw
      have hh := Q.worker.mpr (.inr hw)
      split
      · rename_i hsd
        refine ⟨_, rfl, h.setq hq (by rw [hw]; simp) rfl rfl rfl rfl rfl rfl ?_⟩
        refine ⟨Q.fifo, by simp, ?_, ?_, by simp, by simp, by simp, fun _ => hsd, by simp⟩
        · intro t
          rw [← Q.sub t, hh]; simp
        · rw [← Q.dtor, hh]; simp
      · rename_i hsd
        cases hj : q.jobs with
        | nil =>
          rcases Q.next hw with c | c
          · exact absurd hj c
          · exact absurd c hsd
        | cons j r =>
          dsimp only
          refine ⟨_, rfl, h.setq hq (by rw [hw]; simp) rfl rfl rfl rfl rfl rfl ?_⟩
          refine ⟨?_, by simp, ?_, ?_, by simp, by simp, by simp, by simp, by simp⟩
          · dsimp only; rw [Q.fifo, hj, List.append_assoc]; rfl
          · intro t
            rw [← Q.sub t, hh]; simp
          · rw [← Q.dtor, hh]; simp
    · -- run
      rename_i j hw
      refine ⟨_, rfl, h.setq hq (by rw [hw]; simp) rfl rfl rfl rfl rfl rfl ?_⟩
      have hh : q.held ≠ some .worker := fun c => by
        have := Q.worker.mp c; rw [hw] at this; simp at this
      exact ⟨Q.fifo, by simp [hh], Q.sub, Q.dtor, by simp, by simp, by simp, by simp, by simp⟩
    · exact ⟨s, rfl, h⟩
  · exact ⟨s, rfl, h⟩

theorem dtor_inv (s : St) (h : Inv s) : ∃ s', step s .dtor = .ok s' ∧ Inv s' := by
  unfold step; dsimp only
  split
  · -- lock
    rename_i i hd
    have hil := h.dlt i (.inl hd)
    have hq := List.getElem?_eq_getElem hil
    generalize s.qs[i] = q at hq
    rw [hq]; dsimp only
    have Q := h.q i q hq
    split
    · rename_i hn
      refine ⟨_, rfl, h.dt hq rfl rfl rfl rfl rfl ?_ (by rw [hd]; simp) (by simp) (by rw [hd]; simp) (by simp)
        ?_ ?_ ?_⟩
      · intro k hk; rw [hd]; simp [Dtor.holds, Ne.symm hk]
      · intro k hk _; rw [hd]; exact id
      · intro k hk; simp at hk; subst hk; exact hil
      · have hw : ¬ (q.w = .check ∨ q.w = .check2) := fun c => by
          have := Q.worker.mpr c; rw [hn] at this; cases this
        refine ⟨Q.fifo, by simpa using hw, ?_, by simp [Dtor.holds], Q.awake, ?_, ?_, ?_, Q.last⟩
        · intro v
          dsimp only
          rw [← Q.sub v, hn]; simp
        · intro c; exact absurd (Or.inr c) hw
        · dsimp only; rw [List.length_set]
          intro c _
          have := Q.down c (by unfold St.shutdown; rw [hd]; simp)
          rw [hd] at this; exact this
        · intro _; simp [St.shutdown]
    · exact ⟨s, rfl, h⟩
  · -- signal
    rename_i i hd
    have hil := h.dlt i (.inr (.inl hd))
    have hq := List.getElem?_eq_getElem hil
    generalize s.qs[i] = q at hq
    rw [hq]; dsimp only
    have Q := h.q i q hq
    have hh := Q.dtor.mpr (by rw [hd]; rfl)
    refine ⟨_, rfl, h.dt hq rfl rfl rfl rfl rfl ?_ (by rw [hd]; simp) (by simp) (by rw [hd]; simp) (by simp)
      ?_ ?_ ?_⟩
    · intro k hk; rw [hd]; simp [Dtor.holds, Ne.symm hk]
    · intro k hk _; rw [hd]; simp only [Dtor.next]; omega
    · intro k hk; simp at hk; subst hk; exact hil
    · have hw : ¬ (q.w = .check ∨ q.w = .check2) := fun c => by
        have := Q.worker.mpr c; rw [hh] at this; cases this
      refine ⟨Q.fifo, ?_, Q.sub, by simp [Dtor.holds, hh], ?_, ?_, ?_, ?_, ?_⟩
      · dsimp only; rw [hh]
        cases hx : q.w <;> simp [wakeUp, hx] at hw ⊢
      · intro c
        dsimp only at c
        cases hx : q.w <;> simp [wakeUp, hx] at c
      · intro c
        dsimp only at c
        cases hx : q.w <;> simp [wakeUp, hx] at c
        exact absurd (Or.inr hx) hw
      · intro c
        dsimp only at c
        cases hx : q.w <;> simp [wakeUp, hx] at c
      · intro _; simp [St.shutdown]
      · intro x c
        dsimp only at c
        cases hx : q.w <;> simp [wakeUp, hx] at c
        subst c
        exact Q.last _ hx
  · -- unlock
    rename_i i hd
    have hil := h.dlt i (.inr (.inr hd))
    have hq := List.getElem?_eq_getElem hil
    generalize s.qs[i] = q at hq
    rw [hq]; dsimp only
    have Q := h.q i q hq
    have hh := Q.dtor.mpr (by rw [hd]; rfl)
    refine ⟨_, rfl, h.dt hq rfl rfl rfl rfl rfl ?_ (by rw [hd]; simp) ?_ (by rw [hd]; simp) ?_
      ?_ ?_ ?_⟩
    · intro k hk; rw [hd]; unfold nextDtor; dsimp only
      refine ⟨by simp [Dtor.holds, Ne.symm hk], ?_⟩
      split <;> simp [Dtor.holds]
    · unfold nextDtor; dsimp only; split <;> simp
    · unfold nextDtor; dsimp only; split <;> simp
    · intro k hk hkl; rw [hd]; unfold nextDtor; dsimp only
      split
      · simp only [Dtor.next]; exact id
      · simp only [Dtor.next]; omega
    · intro k hk; unfold nextDtor at hk; dsimp only at hk
      split at hk
      · simp at hk; omega
      · simp at hk
    · have hw : ¬ (q.w = .check ∨ q.w = .check2) := fun c => by
        have := Q.worker.mpr c; rw [hh] at this; cases this
      refine ⟨Q.fifo, by simpa using hw, ?_, ?_, Q.awake, ?_, ?_, ?_, Q.last⟩
      · intro v
        dsimp only
        rw [← Q.sub v, hh]; simp
      · unfold nextDtor; dsimp only; split <;> simp [Dtor.holds]
      · intro c; exact absurd (Or.inr c) hw
      · intro c _
        have := Q.down c (by unfold St.shutdown; rw [hd]; simp)
        rw [hd] at this; simp only [Dtor.next] at this; omega
      · intro _; unfold St.shutdown nextDtor; dsimp only; split <;> simp
  · -- join
    rename_i hd
    split
    · rename_i hc
      refine ⟨_, rfl, ?_, h.idx, by simp, h.cons, fun _ => ⟨hc.1, hc.2, rfl⟩, by simp⟩
      intro k q hq
      have Q := h.q k q hq
      refine Q.frame (fun _ => Iff.rfl) (by rw [hd]; simp [Dtor.holds]) id (fun _ => by simp [St.shutdown]) ?_
      intro c _
      have := hc.1 q (List.mem_of_getElem? hq)
      rw [c] at this; cases this
    · exact ⟨s, rfl, h⟩
  · exact ⟨s, rfl, h⟩

theorem step_inv (s : St) (e : Ev) (hn : s.qs.length ≠ 0) (h : Inv s) : ∃ s', step s e = .ok s' ∧ Inv s' := by
  cases e with
  | sub t => exact sub_inv s t h
  | work i => exact work_inv s i h
  | dtor => exact dtor_inv s h
  | submit t j i =>
    unfold step; dsimp only
    split
    · rename_i hc
      split
      · rename_i hi
        refine ⟨_, rfl, ?_, ?_, h.dlt, ?_, fun c => absurd c hc.2, h.live⟩
        · intro k q hq
          refine (h.q k q hq).frame ?_ Iff.rfl ?_ id (h.q k q hq).down
          · intro v
            dsimp only
            rw [holds_set hc.1]
            constructor
            · rintro (⟨_, c⟩ | ⟨_, c⟩)
              · cases c
              · exact c
            · rintro ⟨y, a, b⟩
              right
              refine ⟨?_, y, a, b⟩
              rintro rfl
              rw [hc.1] at a; injection a with a; subst a; cases b
          · rintro ⟨v, hv⟩
            refine ⟨v, ?_⟩
            dsimp only
            rw [getElem?_set_of hc.1, if_neg]
            · exact hv
            · rintro rfl; rw [hc.1] at hv; cases hv
        · intro v y k hv hy
          rcases getset hc.1 hv with ⟨_, b⟩ | ⟨_, b⟩
          · subst b; simp [Sub.idx] at hy; subst hy; exact hi
          · exact h.idx v y k b hy
        · intro x
          dsimp only
          rw [List.count_append, h.cons x, List.count_singleton]
          have := sum_set (Sub.hand x) s.subs t (.lock i j) _ hc.1
          have e1 : Sub.hand x .idle = 0 := rfl
          have e2 : Sub.hand x (.lock i j) = if j = x then 1 else 0 := rfl
          have e3 : (if (j == x) = true then 1 else 0) = if j = x then 1 else 0 := by simp [beq_iff_eq]
          rw [e3]
          omega
      · exact ⟨s, rfl, h⟩
    · exact ⟨s, rfl, h⟩
  | spurious i =>
    unfold step; dsimp only
    split
    · rename_i q hq
      have Q := h.q i q hq
      split
      · rename_i hw
        refine ⟨_, rfl, h.setq hq (by rw [hw]; simp) rfl rfl rfl rfl rfl rfl ?_⟩
        have hh : q.held ≠ some .worker := fun c => by
          have := Q.worker.mp c; rw [hw] at this; simp at this
        exact ⟨Q.fifo, by simp [hh], Q.sub, Q.dtor, by simp, by simp, by simp, by simp, by simp⟩
      · exact ⟨s, rfl, h⟩
    · exact ⟨s, rfl, h⟩
  | shutdown =>
    unfold step; dsimp only
    split
    · rename_i hd
      have hnd : nextDtor s.qs.length 0 = .lock 0 := by unfold nextDtor; rw [if_pos (by omega)]
      rw [hnd]
      refine ⟨_, rfl, ?_, h.idx, ?_, h.cons, by simp, fun _ => h.live (by rw [hd]; simp)⟩
      · intro k q hq
        refine (h.q k q hq).frame (fun _ => Iff.rfl) (by rw [hd]; simp [Dtor.holds]) id ?_ ?_
        · intro _; simp [St.shutdown]
        · intro _ _; exact Nat.zero_le _
      · intro k hk; simp at hk; subst hk; dsimp only; omega
    · exact ⟨s, rfl, h⟩

theorem length_step {s s' : St} {e : Ev} (h : step s e = .ok s') : s'.qs.length = s.qs.length := by
  cases e <;> unfold step at h <;> dsimp only at h <;> (repeat' split at h) <;> cases h <;>
    first | rfl | (dsimp only; rw [List.length_set])

theorem init_inv (n m : Nat) : Inv (St.init n m) := by
  have hq : ∀ (i : Nat) (q : Q), (St.init n m).qs[i]? = some q → q = ⟨none, [], .lock, [], []⟩ := by
    intro i q h
    have := List.mem_of_getElem? h
    exact (List.mem_replicate.mp this).2
  have hs : ∀ (i : Nat) (u : Sub), (St.init n m).subs[i]? = some u → u = .idle := by
    intro i q h
    have := List.mem_of_getElem? h
    exact (List.mem_replicate.mp this).2
  refine ⟨?_, ?_, by simp [St.init], ?_, by simp [St.init], fun _ => rfl⟩
  · intro i q h
    have := hq i q h; subst this
    refine ⟨rfl, by simp, ?_, by simp [St.init, Dtor.holds], by simp, by simp, by simp, by simp, by simp⟩
    intro t
    simp only [reduceCtorEq, false_iff, not_exists, not_and]
    intro u hu c
    have := hs t u hu; subst this; cases c
  · intro t u i h c
    have := hs t u h; subst this; cases c
  · intro j
    have e1 : ∀ n, (List.map (fun q : Q => q.pushed.count j) (List.replicate n ⟨none, [], .lock, [], []⟩)).sum = 0 := by
      intro n; induction n with
      | zero => rfl
      | succ n ih => rw [List.replicate_succ, List.map_cons, List.sum_cons, ih]; rfl
    have e2 : ∀ n, (List.map (Sub.hand j) (List.replicate n .idle)).sum = 0 := by
      intro n; induction n with
      | zero => rfl
      | succ n ih => rw [List.replicate_succ, List.map_cons, List.sum_cons, ih]; rfl
    simp only [St.init]
    rw [e1, e2]; rfl

end Pool
end Rpp
