import Verif.Model.Task
import Verif.Proof.Sched

namespace Rpp
namespace Task

/-- The coroutine has not yet exchanged the state word. -/
def Co.pre : Co → Prop
  | .run _ | .stored | .waking | .signalled => True
  | _ => False

/-- How the coroutine, the owner and the frame stand. -/
inductive Phase : Co → Owner → Word → Bool → Nat → Prop where
  | held (c w) : c.pre → (w = .start ∨ ∃ k, w = .cont k) → Phase c .holds w true 0
  | left (c) : c.pre → Phase c .gone .abandoned true 0
  | resume (k : Nat) : Phase (.resume k) .holds .done true 0
  | destroy : Phase .destroy .gone .done true 0
  | done : Phase .fin .holds .done true 0
  | own : Phase .fin .destroying .abandoned true 0
  | fin (w) : Phase .fin .gone w false 1

/-- The invariant about lifetimes. -/
structure Inv (s : St) : Prop where
  phase : Phase s.co s.owner s.word s.frame s.destroyed
  inuse : s.owner ≠ .holds → ∀ (t : Nat) (k : Kind) (p : Pc), s.users[t]? = some (k, p) → p = .idle ∨ p = .done
  susp : ∀ (t : Nat) (k : Kind), s.users[t]? = some (k, .suspended) → s.word = .cont t ∨ s.co = .resume t
  word : ∀ t : Nat, s.word = .cont t → ∃ k, s.users[t]? = some (k, .suspended)
  res : ∀ t : Nat, s.co = .resume t → ∃ k, s.users[t]? = some (k, .suspended)

theorem set_user {l : List (Kind × Pc)} {t : Nat} {x y : Kind × Pc} (ht : l[t]? = some x) {u : Nat}
    {z : Kind × Pc} (h : (l.set t y)[u]? = some z) : (u = t ∧ z = y) ∨ (u ≠ t ∧ l[u]? = some z) := by
  rw [getElem?_set_of ht] at h
  split at h
  · rename_i c; injection h with h; exact .inl ⟨c, h.symm⟩
  · rename_i c; exact .inr ⟨c, h⟩

theorem Inv.frame {s : St} (h : Inv s) (hp : s.owner = .holds) : s.frame = true := by
  have := h.phase
  rw [hp] at this
  generalize s.frame = f at *
  generalize s.destroyed = d at *
  generalize s.co = c at *
  generalize s.word = w at *
  cases this <;> rfl

theorem Inv.owner_of {s : St} (h : Inv s) {t : Nat} {k : Kind} {p : Pc} (ht : s.users[t]? = some (k, p))
    (h1 : p ≠ .idle) (h2 : p ≠ .done) : s.owner = .holds := by
  by_cases c : s.owner = .holds
  · exact c
  · rcases h.inuse c t k p ht with c | c
    · exact absurd c h1
    · exact absurd c h2

/-- A user that was not suspended goes to a place that is not suspension. -/
theorem Inv.user {s s' : St} (h : Inv s) {t : Nat} {k k' : Kind} {p q : Pc} (ht : s.users[t]? = some (k, p))
    (hp : p ≠ .suspended) (hq : q ≠ .suspended) (ho : s.owner = .holds)
    (h1 : s'.users = s.users.set t (k', q)) (h2 : s'.co = s.co) (h3 : s'.word = s.word)
    (h4 : s'.owner = s.owner) (h5 : s'.frame = s.frame) (h6 : s'.destroyed = s.destroyed) : Inv s' := by
  refine ⟨by rw [h2, h3, h4, h5, h6]; exact h.phase, by rw [h4]; exact fun c => absurd ho c, ?_, ?_, ?_⟩
  · intro u c hu
    rw [h1] at hu
    rw [h3, h2]
    rcases set_user ht hu with ⟨_, b⟩ | ⟨_, b⟩
    · injection b with _ b; exact absurd b.symm hq
    · exact h.susp u c b
  · intro u hu
    rw [h3] at hu
    obtain ⟨c, hc⟩ := h.word u hu
    refine ⟨c, ?_⟩
    rw [h1, getElem?_set_of ht, if_neg]
    · exact hc
    · rintro rfl
      rw [ht] at hc; injection hc with hc; injection hc with _ hc; exact hp hc
  · intro u hu
    rw [h2] at hu
    obtain ⟨c, hc⟩ := h.res u hu
    refine ⟨c, ?_⟩
    rw [h1, getElem?_set_of ht, if_neg]
    · exact hc
    · rintro rfl
      rw [ht] at hc; injection hc with hc; injection hc with _ hc; exact hp hc

/-- The coroutine goes on before the exchange. -/
theorem Inv.pre {s s' : St} (h : Inv s) (hc : s.co.pre) (hc' : s'.co.pre) (h1 : s'.users = s.users)
    (h3 : s'.word = s.word) (h4 : s'.owner = s.owner) (h5 : s'.frame = s.frame)
    (h6 : s'.destroyed = s.destroyed) : Inv s' := by
  have hn : ∀ t, s.co ≠ .resume t := by rintro t c; rw [c] at hc; exact hc
  have hn' : ∀ t, s'.co ≠ .resume t := by rintro t c; rw [c] at hc'; exact hc'
  refine ⟨?_, by rw [h4, h1]; exact h.inuse, ?_, ?_, fun t c => absurd c (hn' t)⟩
  · rw [h3, h4, h5, h6]
    have := h.phase
    generalize s.owner = o at *
    generalize s.frame = f at *
    generalize s.destroyed = d at *
    generalize s.word = w at *
    generalize s.co = c at *
    cases this with
    | held _ _ a b => exact .held _ _ hc' b
    | left _ a => exact .left _ hc'
    | resume => exact hc.elim
    | destroy => exact hc.elim
    | done => exact hc.elim
    | own => exact hc.elim
    | fin => exact hc.elim
  · intro t k ht
    rw [h1] at ht; rw [h3]
    rcases h.susp t k ht with a | a
    · exact .inl a
    · exact absurd a (hn t)
  · intro t ht
    rw [h3] at ht; rw [h1]; exact h.word t ht

theorem Inv.pre_frame {s : St} (h : Inv s) (hc : s.co.pre) : s.frame = true := by
  have := h.phase
  generalize s.owner = o at *
  generalize s.frame = f at *
  generalize s.destroyed = d at *
  generalize s.word = w at *
  generalize s.co = c at *
  cases this with
  | fin => exact hc.elim
  | _ => rfl

theorem step_inv (s : St) (e : Ev) (h : Inv s) : ∃ s', step s e = .ok s' ∧ Inv s' := by
  cases e with
  | start t =>
    unfold step; dsimp only
    split
    · rename_i ht ho
      exact ⟨_, rfl, h.user (k' := .await) (q := .load) ht (by simp) (by simp) ho rfl rfl rfl rfl rfl rfl⟩
    · rename_i ht ho
      exact ⟨_, rfl, h.user (k' := .block) (q := .wait) ht (by simp) (by simp) ho rfl rfl rfl rfl rfl rfl⟩
    · exact ⟨s, rfl, h⟩
  | go t =>
    unfold step; dsimp only
    split
    · rename_i k ht
      have ho := h.owner_of ht (by simp) (by simp)
      unfold access; rw [if_pos (h.frame ho)]
      exact ⟨_, rfl, h.user (k' := k) (q := if s.word = .done then .take else .cas) ht (by simp)
        (by split <;> simp) ho rfl rfl rfl rfl rfl rfl⟩
    · rename_i k ht
      have ho := h.owner_of ht (by simp) (by simp)
      unfold access; rw [if_pos (h.frame ho)]
      by_cases hw : s.word = .start
      · rw [if_pos hw]
        have hph := h.phase
        rw [hw, ho] at hph
        have hpre : s.co.pre ∧ s.frame = true ∧ s.destroyed = 0 := by
          generalize s.co = c at *
          generalize s.frame = f at *
          generalize s.destroyed = d at *
          cases hph with
          | held _ _ a b => exact ⟨a, rfl, rfl⟩
        have hn : ∀ t, s.co ≠ .resume t := by rintro t c; rw [c] at hpre; exact hpre.1
        refine ⟨_, rfl, ?_, fun c => absurd ho c, ?_, ?_, ?_⟩
        · dsimp only
          rw [hpre.2.1, hpre.2.2, ho]
          exact .held _ _ hpre.1 (.inr ⟨t, rfl⟩)
        · intro u c hu
          rcases set_user ht hu with ⟨a, _⟩ | ⟨_, b⟩
          · subst a; exact .inl rfl
          · rcases h.susp u c b with d | d
            · rw [hw] at d; cases d
            · exact absurd d (hn u)
        · intro u hu
          injection hu with hu
          subst hu
          exact ⟨k, by dsimp only; rw [getElem?_set_of ht, if_pos rfl]⟩
        · intro u hu
          exact absurd hu (hn u)
      · rw [if_neg hw]
        exact ⟨_, rfl, h.user (k' := k) (q := .take) ht (by simp) (by simp) ho rfl rfl rfl rfl rfl rfl⟩
    · rename_i k ht
      have ho := h.owner_of ht (by simp) (by simp)
      unfold access; rw [if_pos (h.frame ho)]
      by_cases hf : s.flag = true
      · rw [if_pos hf]
        exact ⟨_, rfl, h.user (k' := k) (q := .take) ht (by simp) (by simp) ho rfl rfl rfl rfl rfl rfl⟩
      · rw [if_neg hf]; exact ⟨s, rfl, h⟩
    · rename_i k ht
      have ho := h.owner_of ht (by simp) (by simp)
      unfold access; rw [if_pos (h.frame ho)]
      exact ⟨_, rfl, h.user (k' := k) (q := .done) ht (by simp) (by simp) ho rfl rfl rfl rfl rfl rfl⟩
    · exact ⟨s, rfl, h⟩
  | co =>
    unfold step; dsimp only
    split
    · rename_i v hc
      have hp : s.co.pre := by rw [hc]; trivial
      unfold access; rw [if_pos (h.pre_frame hp)]
      exact ⟨_, rfl, h.pre hp trivial rfl rfl rfl rfl rfl⟩
    · rename_i hc
      have hp : s.co.pre := by rw [hc]; trivial
      unfold access; rw [if_pos (h.pre_frame hp)]
      exact ⟨_, rfl, h.pre hp trivial rfl rfl rfl rfl rfl⟩
    · rename_i hc
      have hp : s.co.pre := by rw [hc]; trivial
      unfold access; rw [if_pos (h.pre_frame hp)]
      exact ⟨_, rfl, h.pre hp trivial rfl rfl rfl rfl rfl⟩
    · rename_i hc
      have hp : s.co.pre := by rw [hc]; trivial
      unfold access; rw [if_pos (h.pre_frame hp)]
      refine ⟨_, rfl, ?_⟩
      have hph := h.phase
      have hn : ∀ t, s.co ≠ .resume t := by rintro t c; rw [c] at hp; exact hp
      cases hw : s.word with
      | start =>
        have hx : s.owner = .holds ∧ s.frame = true ∧ s.destroyed = 0 := by
          rw [hw, hc] at hph
          generalize s.owner = o at *
          generalize s.frame = f at *
          generalize s.destroyed = d at *
          cases hph with
          | held _ _ a b => exact ⟨rfl, rfl, rfl⟩
        refine ⟨?_, h.inuse, ?_, by simp, by simp⟩
        · dsimp only; rw [hx.1, hx.2.1, hx.2.2]; exact .done
        · intro t k ht
          rcases h.susp t k ht with a | a
          · rw [hw] at a; cases a
          · exact absurd a (hn t)
      | done =>
        rw [hw, hc] at hph
        generalize s.owner = o at *
        generalize s.frame = f at *
        generalize s.destroyed = d at *
        cases hph with
        | held _ _ a b => rcases b with b | ⟨_, b⟩ <;> cases b
      | abandoned =>
        have hx : s.owner = .gone ∧ s.frame = true ∧ s.destroyed = 0 := by
          rw [hw, hc] at hph
          generalize s.owner = o at *
          generalize s.frame = f at *
          generalize s.destroyed = d at *
          cases hph with
          | held _ _ a b => rcases b with b | ⟨_, b⟩ <;> cases b
          | left => exact ⟨rfl, rfl, rfl⟩
        refine ⟨?_, h.inuse, ?_, by simp, by simp⟩
        · dsimp only; rw [hx.1, hx.2.1, hx.2.2]; exact .destroy
        · intro t k ht
          rcases h.susp t k ht with a | a
          · rw [hw] at a; cases a
          · exact absurd a (hn t)
      | cont k =>
        have hx : s.owner = .holds ∧ s.frame = true ∧ s.destroyed = 0 := by
          rw [hw, hc] at hph
          generalize s.owner = o at *
          generalize s.frame = f at *
          generalize s.destroyed = d at *
          cases hph with
          | held _ _ a b => exact ⟨rfl, rfl, rfl⟩
        refine ⟨?_, h.inuse, ?_, by simp, ?_⟩
        · dsimp only; rw [hx.1, hx.2.1, hx.2.2]; exact .resume k
        · intro t c ht
          rcases h.susp t c ht with a | a
          · rw [hw] at a; injection a with a; subst a; exact .inr rfl
          · exact absurd a (hn t)
        · intro t ht
          injection ht with ht
          subst ht
          exact h.word k hw
    · rename_i hc
      have hph := h.phase
      rw [hc] at hph
      have hx : s.owner = .gone ∧ s.word = .done ∧ s.frame = true ∧ s.destroyed = 0 := by
        generalize s.owner = o at *
        generalize s.frame = f at *
        generalize s.destroyed = d at *
        generalize s.word = w at *
        cases hph with
        | held _ _ a b => exact a.elim
        | left _ a => exact a.elim
        | destroy => exact ⟨rfl, rfl, rfl, rfl⟩
      unfold access; rw [if_pos hx.2.2.1]
      refine ⟨_, rfl, ?_, h.inuse, ?_, ?_, by simp⟩
      · dsimp only; rw [hx.1, hx.2.2.2]; exact .fin _
      · intro t k ht
        rcases h.susp t k ht with a | a
        · rw [hx.2.1] at a; cases a
        · rw [hc] at a; cases a
      · intro t ht
        dsimp only at ht; rw [hx.2.1] at ht; cases ht
    · rename_i k hc
      have hph := h.phase
      rw [hc] at hph
      have hx : s.owner = .holds ∧ s.word = .done ∧ s.frame = true ∧ s.destroyed = 0 := by
        generalize s.owner = o at *
        generalize s.frame = f at *
        generalize s.destroyed = d at *
        generalize s.word = w at *
        cases hph with
        | held _ _ a b => exact a.elim
        | left _ a => exact a.elim
        | resume => exact ⟨rfl, rfl, rfl, rfl⟩
      obtain ⟨c, hk⟩ := h.res k hc
      rw [hk]
      dsimp only
      refine ⟨_, rfl, ?_, fun d => absurd hx.1 d, ?_, ?_, by simp⟩
      · dsimp only; rw [hx.1, hx.2.1, hx.2.2.1, hx.2.2.2]; exact .done
      · intro u q hu
        rcases set_user hk hu with ⟨_, b⟩ | ⟨a, b⟩
        · injection b with _ b; cases b
        · rcases h.susp u q b with d | d
          · exact .inl d
          · rw [hc] at d; injection d with d; exact absurd d.symm a
      · intro u hu
        dsimp only at hu; rw [hx.2.1] at hu; cases hu
    · exact ⟨s, rfl, h⟩
  | drop =>
    unfold step; dsimp only
    split
    · rename_i hc
      obtain ⟨ho, hun⟩ := hc
      have hun' : ∀ (t : Nat) (k : Kind) (p : Pc), s.users[t]? = some (k, p) → p = .idle ∨ p = .done := by
        intro t k p ht
        have := List.all_eq_true.mp hun _ (List.mem_of_getElem? ht)
        simpa using this
      have hph := h.phase
      have hfr := h.frame ho
      have hns : ∀ (t : Nat) (k : Kind), s.users[t]? ≠ some (k, .suspended) := by
        intro t k ht
        rcases hun' t k _ ht with a | a <;> cases a
      unfold access
      rw [if_pos hfr]
      cases hw : s.word with
      | done =>
        have hx : s.co = .fin ∧ s.destroyed = 0 := by
          have hres := h.res
          rw [hw, ho] at hph
          generalize s.co = c at *
          generalize s.frame = f at *
          generalize s.destroyed = d at *
          cases hph with
          | held _ _ a b => rcases b with b | ⟨_, b⟩ <;> cases b
          | resume k => obtain ⟨c, hc⟩ := hres k rfl; exact absurd hc (hns k c)
          | done => exact ⟨rfl, rfl⟩
        refine ⟨_, rfl, ?_, fun _ => hun', fun t k ht => absurd ht (hns t k), by simp, h.res⟩
        dsimp only; rw [hx.1, hx.2, hfr]; exact .own
      | start =>
        have hx : s.co.pre ∧ s.destroyed = 0 := by
          rw [hw, ho] at hph
          generalize s.co = c at *
          generalize s.frame = f at *
          generalize s.destroyed = d at *
          cases hph with
          | held _ _ a b => exact ⟨a, rfl⟩
        dsimp only
        rw [if_pos hfr]
        refine ⟨_, rfl, ?_, fun _ => hun', fun t k ht => absurd ht (hns t k), by simp, h.res⟩
        dsimp only; rw [hx.2, hfr]; exact .left _ hx.1
      | abandoned =>
        rw [hw, ho] at hph
        generalize s.co = c at *
        generalize s.frame = f at *
        generalize s.destroyed = d at *
        cases hph with
        | held _ _ a b => rcases b with b | ⟨_, b⟩ <;> cases b
      | cont k =>
        obtain ⟨c, hc⟩ := h.word k hw
        exact absurd hc (hns k c)
    · exact ⟨s, rfl, h⟩
  | own =>
    unfold step; dsimp only
    split
    · rename_i ho
      have hph := h.phase
      rw [ho] at hph
      have hx : s.co = .fin ∧ s.word = .abandoned ∧ s.frame = true ∧ s.destroyed = 0 := by
        generalize s.co = c at *
        generalize s.frame = f at *
        generalize s.destroyed = d at *
        generalize s.word = w at *
        cases hph with
        | own => exact ⟨rfl, rfl, rfl, rfl⟩
      unfold access; rw [if_pos hx.2.2.1]
      refine ⟨_, rfl, ?_, fun _ => h.inuse (by rw [ho]; simp), h.susp, h.word, h.res⟩
      dsimp only; rw [hx.1, hx.2.2.2]; exact .fin _
    · exact ⟨s, rfl, h⟩

theorem init_inv (v : Nat) (ks : List Kind) : Inv (St.init v ks) := by
  have hu : ∀ (t : Nat) (k : Kind) (p : Pc), (St.init v ks).users[t]? = some (k, p) → p = .idle := by
    intro t k p h
    simp [St.init] at h
    obtain ⟨_, _, _, h⟩ := h
    exact h.symm
  refine ⟨.held _ _ trivial (.inl rfl), fun _ t k p h => .inl (hu t k p h), ?_, by simp [St.init],
    by simp [St.init]⟩
  intro t k h
  have := hu t k _ h
  cases this

/-! ## The value -/

/-- 1 for a user that is finished. -/
def fin1 (u : Kind × Pc) : Nat := if u.2 = .done then 1 else 0

/-- The slot and what was returned. -/
inductive Got (v : Nat) : Slot → List Slot → Prop where
  | unset : Got v .unset []
  | full : Got v (.full v) []
  | moved (k : Nat) : Got v .moved (.full v :: List.replicate k .moved)

/-- At most one user awaits. -/
def Single (s : St) : Prop := ∀ (t u : Nat) (p q : Pc), s.users[t]? = some (.await, p) →
  s.users[u]? = some (.await, q) → t = u

/-- What holds about the value. The parts that need `Single` have it as a condition. -/
structure Val (v : Nat) (s : St) : Prop where
  run : ∀ w, s.co = .run w → w = v ∧ s.flag = false ∧ (Single s → s.slot = .unset ∧ s.got = [])
  stored : s.co = .stored → s.flag = false
  set : (∀ w, s.co ≠ .run w) → s.slot ≠ .unset
  flag : s.flag = true ↔ (∀ w, s.co ≠ .run w) ∧ s.co ≠ .stored
  take : Single s → ∀ (t : Nat) (k : Kind), s.users[t]? = some (k, .take) → s.slot ≠ .unset
  kind : ∀ (t : Nat) (k : Kind) (p : Pc), s.users[t]? = some (k, p) → p = .load ∨ p = .cas ∨ p = .suspended →
    k = .await
  got : Single s → Got v s.slot s.got
  count : s.got.length = (s.users.map fin1).sum

theorem single_set {s s' : St} {t : Nat} {k : Kind} {p q : Pc} (ht : s.users[t]? = some (k, p))
    (h : s'.users = s.users.set t (k, q)) (hs : Single s') : Single s := by
  intro a b x y ha hb
  have key : ∀ (a : Nat) (x : Pc), s.users[a]? = some (.await, x) → ∃ x', s'.users[a]? = some (.await, x') := by
    intro a x ha
    rw [h, getElem?_set_of ht]
    by_cases c : a = t
    · subst c
      rw [ht] at ha; injection ha with ha; injection ha with h1 _
      exact ⟨q, by rw [if_pos rfl, h1]⟩
    · exact ⟨x, by rw [if_neg c]; exact ha⟩
  obtain ⟨x', hx⟩ := key a x ha
  obtain ⟨y', hy⟩ := key b y hb
  exact hs a b x' y' hx hy

/-- A user moves on without touching the value. -/
theorem Val.user {v : Nat} {s s' : St} (h : Val v s) {t : Nat} {k : Kind} {p q : Pc}
    (ht : s.users[t]? = some (k, p)) (hp : p ≠ .done) (hq : q ≠ .done)
    (hk : q = .load ∨ q = .cas ∨ q = .suspended → k = .await)
    (htk : q = .take → Single s → s.slot ≠ .unset)
    (h1 : s'.users = s.users.set t (k, q)) (h2 : s'.co = s.co) (h3 : s'.slot = s.slot)
    (h4 : s'.flag = s.flag) (h5 : s'.got = s.got) : Val v s' := by
  refine ⟨?_, by rw [h2, h4]; exact h.stored, by rw [h2, h3]; exact h.set, by rw [h2, h4]; exact h.flag, ?_, ?_,
    ?_, ?_⟩
  · intro w hw
    rw [h2] at hw; rw [h3, h4, h5]
    obtain ⟨a, b, c⟩ := h.run w hw
    exact ⟨a, b, fun hs => c (single_set ht h1 hs)⟩
  · intro hs u c hu
    rw [h1] at hu; rw [h3]
    rcases set_user ht hu with ⟨_, b⟩ | ⟨_, b⟩
    · injection b with _ b
      exact htk b.symm (single_set ht h1 hs)
    · exact h.take (single_set ht h1 hs) u c b
  · intro u c x hu hx
    rw [h1] at hu
    rcases set_user ht hu with ⟨_, b⟩ | ⟨_, b⟩
    · injection b with b1 b2
      subst b1; subst b2; exact hk hx
    · exact h.kind u c x b hx
  · intro hs
    rw [h3, h5]; exact h.got (single_set ht h1 hs)
  · rw [h5, h1, h.count]
    have := sum_set fin1 s.users t (k, q) _ ht
    have e1 : fin1 (k, p) = 0 := if_neg hp
    have e2 : fin1 (k, q) = 0 := if_neg hq
    omega

theorem step_val (v : Nat) (s s' : St) (e : Ev) (hi : Inv s) (h : Val v s) (hs : step s e = .ok s') :
    Val v s' := by
  cases e with
  | start t =>
    unfold step at hs; dsimp only at hs
    split at hs
    · rename_i ht ho
      cases hs
      exact h.user (q := .load) ht (by simp) (by simp) (by simp) (by simp) rfl rfl rfl rfl rfl
    · rename_i ht ho
      cases hs
      exact h.user (q := .wait) ht (by simp) (by simp) (by simp) (by simp) rfl rfl rfl rfl rfl
    · cases hs; exact h
  | go t =>
    unfold step at hs; dsimp only at hs
    have hdone : s.word = .done → s.slot ≠ .unset := by
      intro hw
      apply h.set
      intro w hc
      have hph := hi.phase
      rw [hw, hc] at hph
      generalize s.owner = o at *
      generalize s.frame = f at *
      generalize s.destroyed = d at *
      cases hph with
      | held _ _ a b => rcases b with b | ⟨_, b⟩ <;> cases b
    split at hs
    · rename_i k ht
      unfold access at hs
      split at hs
      · cases hs
        refine h.user (q := if s.word = .done then .take else .cas) ht (by simp) (by split <;> simp) ?_ ?_ rfl
          rfl rfl rfl rfl
        · intro _; exact h.kind t k _ ht (.inl rfl)
        · intro hq _
          by_cases hw : s.word = .done
          · exact hdone hw
          · rw [if_neg hw] at hq; cases hq
      · cases hs
    · rename_i k ht
      unfold access at hs
      split at hs
      · by_cases hw : s.word = .start
        · rw [if_pos hw] at hs; cases hs
          exact h.user (q := .suspended) ht (by simp) (by simp) (fun _ => h.kind t k _ ht (.inr (.inl rfl)))
            (by simp) rfl rfl rfl rfl rfl
        · rw [if_neg hw] at hs; cases hs
          refine h.user (q := .take) ht (by simp) (by simp) (by simp) ?_ rfl rfl rfl rfl rfl
          intro _ hsing
          cases hwd : s.word with
          | start => exact absurd hwd hw
          | done => exact hdone hwd
          | abandoned =>
            have ho := hi.owner_of ht (by simp) (by simp)
            have hph := hi.phase
            rw [hwd, ho] at hph
            generalize s.co = c at *
            generalize s.frame = f at *
            generalize s.destroyed = d at *
            cases hph with
            | held _ _ a b => rcases b with b | ⟨_, b⟩ <;> cases b
          | cont u =>
            obtain ⟨c, hc⟩ := hi.word u hwd
            have h1 := h.kind u c _ hc (.inr (.inr rfl))
            have h2 := h.kind t k _ ht (.inr (.inl rfl))
            subst h1; subst h2
            have := hsing t u _ _ ht hc
            subst this
            rw [ht] at hc; cases hc
      · cases hs
    · rename_i k ht
      unfold access at hs
      split at hs
      · split at hs
        · rename_i hf
          cases hs
          exact h.user (q := .take) ht (by simp) (by simp) (by simp)
            (fun _ _ => h.set (h.flag.mp hf).1) rfl rfl rfl rfl rfl
        · cases hs; exact h
      · cases hs
    · rename_i k ht
      unfold access at hs
      split at hs
      · cases hs
        have hsg : ∀ {x : St}, x.users = s.users.set t (k, .done) → Single x → Single s :=
          fun hx => single_set ht hx
        refine ⟨?_, h.stored, by simp, h.flag, ?_, ?_, ?_, ?_⟩
        · intro w hw
          obtain ⟨a, b, c⟩ := h.run w hw
          refine ⟨a, b, fun hx => ?_⟩
          have := h.take (hsg rfl hx) t k ht
          exact absurd (c (hsg rfl hx)).1 this
        · intro _ _ _ _; simp
        · intro u c x hu hx
          rcases set_user ht hu with ⟨_, b⟩ | ⟨_, b⟩
          · injection b with b1 b2
            subst b2; simp at hx
          · exact h.kind u c x b hx
        · intro hx
          have hx' : Single s := hsg rfl hx
          have h1 := h.take hx' t k ht
          have h2 := h.got hx'
          dsimp only
          generalize s.slot = sl at *
          generalize s.got = g at *
          cases h2 with
          | unset => exact absurd rfl h1
          | full => exact .moved 0
          | moved n =>
            rw [List.cons_append, ← List.replicate_succ']
            exact .moved _
        · dsimp only
          have := sum_set fin1 s.users t (k, .done) _ ht
          have e1 : fin1 (k, .take) = 0 := rfl
          have e2 : fin1 (k, .done) = 1 := rfl
          have := h.count
          simp only [List.length_append, List.length_cons, List.length_nil]
          omega
      · cases hs
    · cases hs; exact h
  | co =>
    unfold step at hs; dsimp only at hs
    split at hs
    · rename_i w hc
      unfold access at hs
      split at hs
      · cases hs
        obtain ⟨a, b, c⟩ := h.run w hc
        subst a
        refine ⟨by simp, fun _ => b, by simp, by simp [b], by simp, h.kind, ?_, h.count⟩
        intro hx
        dsimp only
        rw [(c hx).2]; exact .full
      · cases hs
    · rename_i hc
      unfold access at hs
      split at hs
      · cases hs
        refine ⟨by simp, by simp, fun _ => h.set (by rw [hc]; simp), by simp, h.take, h.kind, h.got, h.count⟩
      · cases hs
    · rename_i hc
      unfold access at hs
      split at hs
      · cases hs
        have hf := h.flag.mpr (by rw [hc]; simp)
        refine ⟨by simp, by simp, fun _ => h.set (by rw [hc]; simp), by simp [hf], h.take, h.kind, h.got,
          h.count⟩
      · cases hs
    · rename_i hc
      unfold access at hs
      split at hs
      · cases hs
        have hf := h.flag.mpr (by rw [hc]; simp)
        have hsl := h.set (by rw [hc]; simp)
        refine ⟨?_, ?_, fun _ => hsl, ?_, h.take, h.kind, h.got, h.count⟩
        · dsimp only; cases s.word <;> simp
        · dsimp only; cases s.word <;> simp
        · dsimp only; cases s.word <;> simp [hf]
      · cases hs
    · rename_i hc
      unfold access at hs
      split at hs
      · cases hs
        have hf := h.flag.mpr (by rw [hc]; simp)
        exact ⟨by simp, by simp, fun _ => h.set (by rw [hc]; simp), by simp [hf], h.take, h.kind, h.got,
          h.count⟩
      · cases hs
    · rename_i k hc
      have hf := h.flag.mpr (by rw [hc]; simp)
      have hsl := h.set (by rw [hc]; simp)
      split at hs
      · rename_i c hk
        cases hs
        have hb : Val v { s with co := .fin } :=
          ⟨by simp, by simp, fun _ => hsl, by simp [hf], h.take, h.kind, h.got, h.count⟩
        exact hb.user (s := { s with co := .fin }) (q := .take) hk (by simp) (by simp) (by simp)
          (fun _ _ => hsl) rfl rfl rfl rfl rfl
      · cases hs
    · cases hs; exact h
  | drop =>
    unfold step at hs; dsimp only at hs
    have key : ∀ s1 : St, s1.co = s.co → s1.slot = s.slot → s1.flag = s.flag → s1.users = s.users →
        s1.got = s.got → Val v s1 := by
      intro s1 a b c d e
      have hsg : Single s1 → Single s := by unfold Single; rw [d]; exact id
      refine ⟨?_, by rw [a, c]; exact h.stored, by rw [a, b]; exact h.set, by rw [a, c]; exact h.flag,
        fun x => by rw [d, b]; exact h.take (hsg x), by rw [d]; exact h.kind,
        fun x => by rw [b, e]; exact h.got (hsg x), by rw [d, e]; exact h.count⟩
      intro w hw
      rw [a] at hw; rw [b, c, e]
      obtain ⟨x, y, z⟩ := h.run w hw
      exact ⟨x, y, fun q => z (hsg q)⟩
    split at hs
    · split at hs
      · unfold access at hs
        split at hs <;> cases hs
        exact key _ rfl rfl rfl rfl rfl
      · unfold access at hs
        split at hs <;> cases hs
        exact key _ rfl rfl rfl rfl rfl
      · cases hs
    · cases hs; exact h
  | own =>
    unfold step at hs; dsimp only at hs
    split at hs
    · unfold access at hs
      split at hs <;> cases hs
      have hsg : ∀ s1 : St, s1.users = s.users → Single s1 → Single s := by
        intro s1 e; unfold Single; rw [e]; exact id
      exact ⟨fun w hw => ⟨(h.run w hw).1, (h.run w hw).2.1, fun x => (h.run w hw).2.2 (hsg _ rfl x)⟩, h.stored,
        h.set, h.flag, fun x => h.take (hsg _ rfl x), h.kind, fun x => h.got (hsg _ rfl x), h.count⟩
    · cases hs; exact h

theorem init_val (v : Nat) (ks : List Kind) : Val v (St.init v ks) := by
  have hu : ∀ (t : Nat) (k : Kind) (p : Pc), (St.init v ks).users[t]? = some (k, p) → p = .idle := by
    intro t k p h
    simp [St.init] at h
    obtain ⟨_, _, _, h⟩ := h
    exact h.symm
  refine ⟨?_, by simp [St.init], by simp [St.init], ?_, ?_, ?_, fun _ => .unset, ?_⟩
  · intro w hw
    simp [St.init] at hw
    exact ⟨hw.symm, rfl, fun _ => ⟨rfl, rfl⟩⟩
  · simp [St.init]
  · intro _ t k h
    have := hu t k _ h; cases this
  · intro t k p h hp
    have := hu t k _ h; subst this; simp at hp
  · simp only [St.init, List.length_nil, List.map_map]
    have : (fin1 ∘ fun x : Kind => (x, Pc.idle)) = fun _ => 0 := by funext x; rfl
    rw [this]
    have h0 : ∀ l : List Kind, (l.map fun _ => 0).sum = 0 := by
      intro l
      induction l with
      | nil => rfl
      | cons x l ih => rw [List.map_cons, List.sum_cons, ih]
    exact (h0 ks).symm

/-- Steps left of a user when the coroutine is finished. -/
def steps : Pc → Nat
  | .load | .cas | .wait => 2
  | .take => 1
  | .suspended => 3
  | _ => 0

/-- Steps user `t` has left when the coroutine is finished. -/
def left (t : Nat) (s : St) : Nat := match s.users[t]? with
  | some (_, p) => steps p
  | none => 0

theorem left_eq {t : Nat} {s : St} {k : Kind} {p : Pc} (h : s.users[t]? = some (k, p)) :
    left t s = steps p := by
  unfold left; rw [h]

theorem left_other {t u : Nat} {s s' : St} {x y : Kind × Pc} (hu : s.users[u]? = some x) (h : u ≠ t)
    (hs : s'.users = s.users.set u y) : left t s' = left t s := by
  unfold left
  rw [hs, getElem?_set_of hu, if_neg (fun c => h c.symm)]

theorem left_set {t : Nat} {s s' : St} {k : Kind} {x : Kind × Pc} {p : Pc} (hu : s.users[t]? = some x)
    (hs : s'.users = s.users.set t (k, p)) :
    left t s' = steps p := by
  apply left_eq (k := k)
  rw [hs, getElem?_set_of hu, if_pos rfl]

theorem left_step (v t : Nat) (s s' : St) (e : Ev) (hi : Inv s) (hv : Val v s) (hc : s.co = .fin)
    (he : e ≠ .start t) (h : step s e = .ok s') :
    left t s' ≤ left t s - (if e == .go t then 1 else 0) := by
  have hf : s.flag = true := hv.flag.mpr (by rw [hc]; simp)
  have hsusp : ∀ (u : Nat) (k : Kind), s.users[u]? ≠ some (k, .suspended) := by
    intro u k hu
    have ho := hi.owner_of hu (by simp) (by simp)
    have hph := hi.phase
    rw [hc, ho] at hph
    rcases hi.susp u k hu with a | a
    · rw [a] at hph
      generalize s.frame = f at *
      generalize s.destroyed = d at *
      cases hph with
      | held _ _ a b => exact a.elim
    · rw [hc] at a; cases a
  have hword : ∀ (u : Nat) (k : Kind) (p : Pc), s.users[u]? = some (k, p) → p ≠ .idle → p ≠ .done →
      s.word = .done := by
    intro u k p hu h1 h2
    have ho := hi.owner_of hu h1 h2
    have hph := hi.phase
    rw [hc, ho] at hph
    generalize s.frame = f at *
    generalize s.destroyed = d at *
    generalize s.word = w at *
    cases hph with
    | held _ _ a b => exact a.elim
    | done => rfl
  cases e with
  | start u =>
    have hb : (Ev.start u == Ev.go t) = false := by simp
    rw [hb, if_neg (by simp), Nat.sub_zero]
    have hut : u ≠ t := by rintro rfl; exact he rfl
    unfold step at h; dsimp only at h
    split at h
    · rename_i hu _
      cases h
      rw [left_other hu hut rfl]; exact Nat.le_refl _
    · rename_i hu _
      cases h
      rw [left_other hu hut rfl]; exact Nat.le_refl _
    · cases h; exact Nat.le_refl _
  | co =>
    unfold step at h
    dsimp only at h
    rw [hc] at h
    cases h
    have hb : (Ev.co == Ev.go t) = false := by simp
    rw [hb, if_neg (by simp)]; exact Nat.le_refl _
  | drop =>
    have hb : (Ev.drop == Ev.go t) = false := by simp
    rw [hb, if_neg (by simp), Nat.sub_zero]
    unfold step at h; dsimp only at h
    split at h
    · split at h
      · unfold access at h
        split at h <;> cases h
        exact Nat.le_refl _
      · unfold access at h
        split at h <;> cases h
        exact Nat.le_refl _
      · cases h
    · cases h; exact Nat.le_refl _
  | own =>
    have hb : (Ev.own == Ev.go t) = false := by simp
    rw [hb, if_neg (by simp), Nat.sub_zero]
    unfold step at h; dsimp only at h
    split at h
    · unfold access at h
      split at h <;> cases h
      exact Nat.le_refl _
    · cases h; exact Nat.le_refl _
  | go u =>
    by_cases hut : u = t
    · subst hut
      rw [if_pos (by simp)]
      unfold step at h; dsimp only at h
      split at h
      · rename_i k hu
        unfold access at h
        split at h <;> cases h
        have hw := hword u k _ hu (by simp) (by simp)
        rw [left_set (k := k) (p := .take) hu (by dsimp only; rw [if_pos hw])]
        rw [left_eq hu]; simp [steps]
      · rename_i k hu
        unfold access at h
        have hw := hword u k _ hu (by simp) (by simp)
        have hw' : ¬ s.word = .start := by rw [hw]; simp
        rw [if_neg hw'] at h
        split at h <;> cases h
        rw [left_set (k := k) (p := .take) hu rfl]
        rw [left_eq hu]; simp [steps]
      · rename_i k hu
        unfold access at h
        rw [if_pos hf] at h
        split at h <;> cases h
        rw [left_set (k := k) (p := .take) hu rfl]
        rw [left_eq hu]; simp [steps]
      · rename_i k hu
        unfold access at h
        split at h <;> cases h
        rw [left_set (k := k) (p := .done) hu rfl]
        rw [left_eq hu]; simp [steps]
      · rename_i h1 h2 h3 h4
        cases h
        have : left u s = 0 := by
          unfold left
          cases hx : s.users[u]? with
          | none => rfl
          | some x =>
            obtain ⟨k, p⟩ := x
            cases p with
            | idle => rfl
            | done => rfl
            | load => exact absurd hx (h1 _)
            | cas => exact absurd hx (h2 _)
            | wait => exact absurd hx (h3 _)
            | take => exact absurd hx (h4 _)
            | suspended => exact absurd hx (hsusp _ _)
        omega
    · have hb : (Ev.go u == Ev.go t) = false := by simp [hut]
      rw [hb, if_neg (by simp), Nat.sub_zero]
      unfold step at h; dsimp only at h
      split at h
      · rename_i k hu
        unfold access at h
        split at h <;> cases h
        rw [left_other hu hut rfl]; exact Nat.le_refl _
      · rename_i k hu
        unfold access at h
        have hw := hword u k _ hu (by simp) (by simp)
        have hw' : ¬ s.word = .start := by rw [hw]; simp
        rw [if_neg hw'] at h
        split at h <;> cases h
        rw [left_other hu hut rfl]; exact Nat.le_refl _
      · rename_i k hu
        unfold access at h
        rw [if_pos hf] at h
        split at h <;> cases h
        rw [left_other hu hut rfl]; exact Nat.le_refl _
      · rename_i k hu
        unfold access at h
        split at h <;> cases h
        rw [left_other hu hut rfl]; exact Nat.le_refl _
      · cases h; exact Nat.le_refl _

theorem fin_step (s s' : St) (e : Ev) (hc : s.co = .fin) (h : step s e = .ok s') : s'.co = .fin := by
  cases e <;> unfold step at h <;> dsimp only at h
  · (repeat' split at h) <;> cases h <;> exact hc
  · unfold access at h
    (repeat' split at h) <;> cases h <;> exact hc
  · rw [hc] at h; cases h; exact hc
  · unfold access at h
    (repeat' split at h) <;> cases h <;> exact hc
  · unfold access at h
    (repeat' split at h) <;> cases h <;> exact hc

theorem not_suspended {s : St} (hi : Inv s) (hc : s.co = .fin) (u : Nat) (k : Kind) :
    s.users[u]? ≠ some (k, .suspended) := by
  intro hu
  have ho := hi.owner_of hu (by simp) (by simp)
  have hph := hi.phase
  rw [hc, ho] at hph
  rcases hi.susp u k hu with a | a
  · rw [a] at hph
    generalize s.frame = f at *
    generalize s.destroyed = d at *
    cases hph with
    | held _ _ a b => exact a.elim
  · rw [hc] at a; cases a

theorem map_set_same {l : List (Kind × Pc)} {t : Nat} {k : Kind} {p q : Pc} (h : l[t]? = some (k, p)) :
    (l.set t (k, q)).map (·.1) = l.map (·.1) := by
  rw [List.map_set]
  apply List.ext_getElem?
  intro i
  rw [getElem?_set_of (x := k) (by rw [List.getElem?_map, h]; rfl)]
  split
  · rename_i c; subst c; rw [List.getElem?_map, h]; rfl
  · rfl

theorem kinds_step (s s' : St) (e : Ev) (h : step s e = .ok s') : s'.users.map (·.1) = s.users.map (·.1) := by
  cases e <;> unfold step at h <;> (try unfold access at h) <;> dsimp only at h <;> (repeat' split at h) <;>
    cases h <;> first | rfl | (dsimp only; rw [map_set_same (by assumption)]) | skip
  all_goals ((repeat' split) <;> first | rfl | (dsimp only; rw [map_set_same (by assumption)]))

theorem single_of_count {s : St} (h : (s.users.map (·.1)).count .await ≤ 1) : Single s := by
  intro t u p q ht hu
  have key : ∀ (l : List Kind) (t u : Nat), l.count .await ≤ 1 → l[t]? = some .await → l[u]? = some .await →
      t = u := by
    intro l
    induction l with
    | nil => intro t u _ ht; simp at ht
    | cons k l ih =>
      intro t u hc ht hu
      rw [List.count_cons] at hc
      have hz : ∀ i : Nat, l[i]? = some .await → 1 ≤ l.count .await := by
        intro i hi
        exact List.count_pos_iff.mpr (List.mem_of_getElem? hi)
      cases t with
      | zero =>
        cases u with
        | zero => rfl
        | succ u =>
          simp at ht hu
          have := hz u hu
          rw [if_pos (by simp [ht])] at hc
          omega
      | succ t =>
        cases u with
        | zero =>
          simp at ht hu
          have := hz t ht
          rw [if_pos (by simp [hu])] at hc
          omega
        | succ u =>
          simp at ht hu
          have := ih t u (by omega) ht hu
          omega
  refine key _ t u h ?_ ?_
  · rw [List.getElem?_map, ht]; rfl
  · rw [List.getElem?_map, hu]; rfl

theorem sum_fin1 : ∀ l : List (Kind × Pc), (l.map fin1).sum = l.countP (·.2 = .done)
  | [] => rfl
  | x :: l => by
    rw [List.map_cons, List.sum_cons, List.countP_cons, sum_fin1 l]
    unfold fin1
    by_cases h : x.2 = .done <;> simp [h] <;> omega

/-- As long as the coroutine runs no result is there. -/
def Early (s : St) : Prop := ∀ w, s.co = .run w → ∀ v, s.slot ≠ .full v

theorem early_step {s s' : St} (e : Ev) (h : Early s) (he : step s e = .ok s') : Early s' := by
  have acc : ∀ {r : St}, access s r = .ok s' → s' = r := by
    intro r hr
    unfold access at hr
    split at hr
    · cases hr; rfl
    · cases hr
  cases e with
  | start t =>
    simp only [step] at he
    split at he <;> cases he <;> exact h
  | go t =>
    simp only [step] at he
    split at he
    · rw [acc he]; exact h
    · rw [acc he]; split <;> exact h
    · rw [acc he]; split <;> exact h
    · rw [acc he]; intro w _ v hx; cases hx
    · cases he; exact h
  | co =>
    simp only [step] at he
    split at he
    · rw [acc he]; intro w hw; cases hw
    · rw [acc he]; intro w hw; cases hw
    · rw [acc he]; intro w hw; cases hw
    · rw [acc he]; intro w hw
      dsimp only at hw
      split at hw <;> cases hw
    · rw [acc he]; intro w hw; cases hw
    · split at he
      · cases he; intro w hw; cases hw
      · cases he
    · cases he; exact h
  | drop =>
    simp only [step] at he
    split at he
    · split at he
      · rw [acc he]; exact h
      · rw [acc he]; exact h
      · cases he
    · cases he; exact h
  | own =>
    simp only [step] at he
    split at he
    · rw [acc he]; exact h
    · cases he; exact h

end Task
end Rpp
