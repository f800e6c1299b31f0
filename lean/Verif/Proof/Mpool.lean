import Verif.Spec.Mpool
import Verif.Proof.FreeList
import Verif.Proof.Sched

namespace Rpp
namespace Mp
open FList (set FSeg FSeg_congr set_same)

/-- One if the thread has block `a` for itself. -/
def Pc.own (a : Nat) : Pc → Nat
  | .mkUnlock _ b | .mkNew _ b | .dsDtor b | .dsLock b | .dsLink b | .dsHead b => if b = a then 1 else 0
  | _ => 0

/-- Inside the lock. -/
def Pc.crit : Pc → Bool
  | .mkHead _ | .mkNext _ _ | .mkUnlock _ _ | .dsLink _ | .dsHead _ | .dsUnlock => true
  | _ => false

/-- What a thread relies on. -/
def Pc.inv (s : St) : Pc → Prop
  | .mkNext _ a => s.list = some a
  | .mkUnlock _ a => ∀ v, s.mem a ≠ some (.obj (some v))
  | .mkNew _ a => s.mem a = some (.obj none)
  | .dsDtor a => ∃ v, s.mem a = some (.obj (some v))
  | .dsLock a => s.mem a = some (.obj none)
  | .dsLink a => s.mem a = some (.obj none)
  | .dsHead a => s.mem a = some (.node s.list)
  | _ => True

def has (x : Option (FCell (Option Nat))) : Nat := if x.isSome then 1 else 0

/-- How often block `a` is spoken for. -/
def tot (s : St) (F : List Nat) (a : Nat) : Nat :=
  F.count a + (s.objs.map Prod.fst).count a + (s.thr.map (Pc.own a)).sum

structure Inv (s : St) (F : List Nat) : Prop where
  seg : FSeg s.mem s.list F
  own : ∀ a, tot s F a = has (s.mem a)
  live : ∀ p ∈ s.objs, s.mem p.1 = some (.obj (some p.2))
  pc : ∀ (t : Nat) (p : Pc), s.thr[t]? = some p → Pc.inv s p
  lock : ∀ (t : Nat) (p : Pc), s.thr[t]? = some p → p.crit = true → s.holder = some t
  held : ∀ t, s.holder = some t → ∃ p, s.thr[t]? = some p ∧ p.crit = true
  fin : ∃ N, ∀ a, N ≤ a → s.mem a = none

theorem init_inv (n : Nat) : Inv (St.init n) [] := by
  have h0 : ∀ a, ((List.replicate n Pc.idle).map (Pc.own a)).sum = 0 := by
    intro a; rw [List.map_replicate]; simp [Pc.own]
  refine ⟨rfl, fun a => ?_, fun p hp => (by cases hp), fun t p h => ?_, fun t p h hc => ?_,
    fun t h => (by cases h), ⟨0, fun a _ => rfl⟩⟩
  · simp only [tot, St.init, has, h0]; simp
  · have := List.eq_of_mem_replicate (List.mem_of_getElem? h); subst this; trivial
  · have := List.eq_of_mem_replicate (List.mem_of_getElem? h); subst this; cases hc

/-- What the block of one thread excludes. -/
theorem Inv.excl {s : St} {F : List Nat} (I : Inv s F) {t a : Nat} {p : Pc} (h : s.thr[t]? = some p)
    (ho : p.own a = 1) : a ∉ F ∧ a ∉ s.objs.map Prod.fst ∧ s.mem a ≠ none ∧
      ∀ (t' : Nat) (p' : Pc), t' ≠ t → s.thr[t']? = some p' → p'.own a = 0 := by
  have h1 := I.own a
  have h2 : has (s.mem a) ≤ 1 := by unfold has; split <;> omega
  have h3 := le_sum (Pc.own a) s.thr t p h
  have h4 : ∀ (t' : Nat) (p' : Pc), t' ≠ t → s.thr[t']? = some p' → p'.own a + p.own a ≤ (s.thr.map (Pc.own a)).sum := by
    intro t' p' hne h'
    have e1 := sum_set (Pc.own a) s.thr t .idle p h
    have e2 : (s.thr.set t .idle)[t']? = some p' := by rw [getElem?_set_of h, if_neg hne]; exact h'
    have e3 := le_sum (Pc.own a) _ t' p' e2
    have e4 : Pc.own a .idle = 0 := rfl
    omega
  unfold tot at h1
  refine ⟨fun hm => ?_, fun hm => ?_, fun hm => ?_, fun t' p' hne h' => ?_⟩
  · have := List.count_pos_iff.2 hm; omega
  · have := List.count_pos_iff.2 hm; omega
  · rw [hm] at h1; simp only [has, Option.isSome_none] at h1
    simp at h1; omega
  · have := h4 t' p' hne h'; omega

/-- The same for a block in the free list. -/
theorem Inv.exclF {s : St} {F : List Nat} (I : Inv s F) {a : Nat} (hF : a ∈ F) :
    a ∉ s.objs.map Prod.fst ∧ F.count a = 1 ∧ ∀ (t : Nat) (p : Pc), s.thr[t]? = some p → p.own a = 0 := by
  have h1 := I.own a
  have h2 : has (s.mem a) ≤ 1 := by unfold has; split <;> omega
  have h3 := List.count_pos_iff.2 hF
  unfold tot at h1
  refine ⟨fun hm => ?_, by omega, fun t p h => ?_⟩
  · have := List.count_pos_iff.2 hm; omega
  · have := le_sum (Pc.own a) s.thr t p h; omega

/-- The same for an object. -/
theorem Inv.exclO {s : St} {F : List Nat} (I : Inv s F) {a : Nat} (ho : a ∈ s.objs.map Prod.fst) :
    a ∉ F ∧ (s.objs.map Prod.fst).count a = 1 ∧ ∀ (t : Nat) (p : Pc), s.thr[t]? = some p → p.own a = 0 := by
  have h1 := I.own a
  have h2 : has (s.mem a) ≤ 1 := by unfold has; split <;> omega
  have h3 := List.count_pos_iff.2 ho
  unfold tot at h1
  refine ⟨fun hm => ?_, by omega, fun t p h => ?_⟩
  · have := List.count_pos_iff.2 hm; omega
  · have := le_sum (Pc.own a) s.thr t p h; omega

/-- Memory not obtained is not spoken for. -/
theorem Inv.exclN {s : St} {F : List Nat} (I : Inv s F) {a : Nat} (ho : s.mem a = none) :
    a ∉ F ∧ a ∉ s.objs.map Prod.fst ∧ ∀ (t : Nat) (p : Pc), s.thr[t]? = some p → p.own a = 0 := by
  have h1 := I.own a
  rw [ho] at h1
  have h2 : has (none : Option (FCell (Option Nat))) = 0 := rfl
  unfold tot at h1
  refine ⟨fun hm => ?_, fun hm => ?_, fun t p h => ?_⟩
  · have := List.count_pos_iff.2 hm; omega
  · have := List.count_pos_iff.2 hm; omega
  · have := le_sum (Pc.own a) s.thr t p h; omega

/-- Another thread's view does not change when a block it does not have changes and, if the head of the list
changes, it is not inside the lock. -/
theorem Pc.inv_congr {s s' : St} {p : Pc} (h : Pc.inv s p) (hl : p.crit = true → s'.list = s.list)
    (hm : ∀ a, p.own a = 1 → s'.mem a = s.mem a) : Pc.inv s' p := by
  cases p <;> simp only [Pc.inv, Pc.own, Pc.crit] at h hl hm ⊢
  case mkNext v a => rw [hl trivial]; exact h
  case mkUnlock v a => rw [hm a (by simp)]; exact h
  case mkNew v a => rw [hm a (by simp)]; exact h
  case dsDtor a => rw [hm a (by simp)]; exact h
  case dsLock a => rw [hm a (by simp)]; exact h
  case dsLink a => rw [hm a (by simp)]; exact h
  case dsHead a => rw [hm a (by simp), hl trivial]; exact h

/-- Thread `t` moves from `p` to `q`, changing block `b` of its own (or none) only. -/
theorem Inv.update {s : St} {F F' : List Nat} (I : Inv s F) {t : Nat} {p q : Pc}
    (h : s.thr[t]? = some p) (s' : St) (hthr : s'.thr = s.thr.set t q)
    (hseg : FSeg s'.mem s'.list F')
    (hown : ∀ a, F'.count a + (s'.objs.map Prod.fst).count a + q.own a + has (s.mem a) =
      F.count a + (s.objs.map Prod.fst).count a + p.own a + has (s'.mem a))
    (hlive : ∀ x ∈ s'.objs, s'.mem x.1 = some (.obj (some x.2)))
    (hq : Pc.inv s' q)
    (hlist : s'.list = s.list ∨ s.holder = some t)
    (hmem : ∀ a, s'.mem a = s.mem a ∨ ∀ (t' : Nat) (p' : Pc), t' ≠ t → s.thr[t']? = some p' → p'.own a = 0)
    (hhold : (s'.holder = s.holder ∧ (q.crit = p.crit)) ∨
      (s.holder = none ∧ s'.holder = some t ∧ q.crit = true) ∨
      (p.crit = true ∧ s'.holder = none ∧ q.crit = false))
    (hfin : ∃ b, ∀ a, a ≠ b → s'.mem a = s.mem a) : Inv s' F' := by
  have hget : ∀ j, s'.thr[j]? = if j = t then some q else s.thr[j]? := by
    intro j; rw [hthr]; exact getElem?_set_of h q j
  refine ⟨hseg, fun a => ?_, hlive, fun j r hj => ?_, fun j r hj hc => ?_, fun j hj => ?_, ?_⟩
  · have h1 := I.own a
    have h2 := hown a
    have h3 := sum_set (Pc.own a) s.thr t q p h
    unfold tot at h1 ⊢
    rw [hthr]
    omega
  · rw [hget] at hj
    split at hj
    · cases hj; exact hq
    · rename_i hne
      refine Pc.inv_congr (I.pc j r hj) (fun hc => ?_) (fun a ha => ?_)
      · rcases hlist with h1 | h1
        · exact h1
        · have := I.lock j r hj hc
          rw [h1] at this; cases this; exact absurd rfl hne
      · rcases hmem a with h1 | h1
        · exact h1
        · have := h1 j r hne hj; omega
  · rw [hget] at hj
    split at hj
    · cases hj
      rename_i e; subst e
      rcases hhold with ⟨h1, h2⟩ | ⟨_, h2, _⟩ | ⟨_, _, h3⟩
      · rw [h1]; exact I.lock _ p h (by rw [← h2]; exact hc)
      · exact h2
      · rw [h3] at hc; cases hc
    · rename_i hne
      have h4 := I.lock j r hj hc
      rcases hhold with ⟨h1, _⟩ | ⟨h1, _, _⟩ | ⟨h1, _, _⟩
      · rw [h1]; exact h4
      · rw [h1] at h4; cases h4
      · have := I.lock t p h h1
        rw [this] at h4; cases h4; exact absurd rfl hne
  · rcases hhold with ⟨h1, h2⟩ | ⟨h1, h2, h3⟩ | ⟨h1, h2, h3⟩
    · rw [h1] at hj
      obtain ⟨r, h4, h5⟩ := I.held j hj
      by_cases e : j = t
      · subst e
        rw [h] at h4; cases h4
        exact ⟨q, by rw [hget, if_pos rfl], by rw [h2]; exact h5⟩
      · exact ⟨r, by rw [hget, if_neg e]; exact h4, h5⟩
    · rw [h2] at hj; cases hj
      exact ⟨q, by rw [hget, if_pos rfl], h3⟩
    · rw [h2] at hj; cases hj
  · obtain ⟨N, hN⟩ := I.fin
    obtain ⟨b, hb⟩ := hfin
    refine ⟨max N (b + 1), fun a ha => ?_⟩
    rw [hb a (by omega)]
    exact hN a (by omega)

theorem has_set {m : Nat → Option (FCell (Option Nat))} {b : Nat} {c : FCell (Option Nat)}
    (hb : m b ≠ none) (a : Nat) : has (set m b (some c) a) = has (m a) := by
  unfold FList.set
  split
  · rename_i e; subst e
    cases h : m a with
    | none => exact absurd h hb
    | some x => rfl
  · rfl

theorem set_ne {m : Nat → Option (FCell (Option Nat))} {b a : Nat} {c : Option (FCell (Option Nat))}
    (h : a ≠ b) : set m b c a = m a := if_neg h

/-- A block of the thread's own may change. -/
theorem Inv.block {s : St} {F : List Nat} (I : Inv s F) {t b : Nat} {p q : Pc} (h : s.thr[t]? = some p)
    (hp : p.own b = 1) (hq : ∀ a, q.own a = p.own a) (c : FCell (Option Nat)) (hold : Option Nat)
    (hhold : (hold = s.holder ∧ (q.crit = p.crit)) ∨ (p.crit = true ∧ hold = none ∧ q.crit = false))
    (hi : Pc.inv { s with mem := set s.mem b (some c), holder := hold, thr := s.thr.set t q } q) :
    Inv { s with mem := set s.mem b (some c), holder := hold, thr := s.thr.set t q } F := by
  obtain ⟨e1, e2, e3, e4⟩ := I.excl h hp
  refine I.update h _ rfl (FSeg_congr I.seg fun a ha => set_ne fun e => e1 (e ▸ ha)) (fun a => ?_)
    (fun x hx => ?_) hi (.inl rfl) (fun a => ?_) ?_ ⟨b, fun a ha => set_ne ha⟩
  · dsimp only
    rw [has_set e3, hq]
  · dsimp only
    rw [set_ne (fun e => e2 (List.mem_map.2 ⟨x, hx, e⟩))]
    exact I.live x hx
  · dsimp only
    by_cases e : a = b
    · subst e; exact .inr e4
    · exact .inl (set_ne e)
  · rcases hhold with h1 | h1
    · exact .inl h1
    · exact .inr (.inr h1)

theorem go_ok {s : St} {F : List Nat} (I : Inv s F) {t base : Nat} {p : Pc} (h : s.thr[t]? = some p) :
    ∃ s' F', go s t base p = .ok s' ∧ Inv s' F' := by
  have P := I.pc t p h
  cases p with
  | idle => exact ⟨s, F, rfl, I⟩
  | mkLock v =>
    unfold go
    dsimp only
    cases hh : s.holder with
    | some x => exact ⟨s, F, rfl, I⟩
    | none =>
      exact ⟨_, F, rfl, I.update h _ rfl I.seg (fun a => rfl) I.live trivial (.inl rfl) (fun a => .inl rfl)
        (.inr (.inl ⟨hh, rfl, rfl⟩)) ⟨0, fun a _ => rfl⟩⟩
  | mkHead v =>
    unfold go
    dsimp only
    cases hl : s.list with
    | some a =>
      exact ⟨_, F, rfl, I.update h _ rfl I.seg (fun a => rfl) I.live hl (.inl rfl) (fun a => .inl rfl)
        (.inl ⟨rfl, rfl⟩) ⟨0, fun a _ => rfl⟩⟩
    | none =>
      dsimp only
      cases hm : s.mem base with
      | some x => exact ⟨s, F, rfl, I⟩
      | none =>
        obtain ⟨e1, e2, e3⟩ := I.exclN hm
        refine ⟨_, F, rfl, I.update h _ rfl
          (by have := I.seg; rw [hl] at this; exact FSeg_congr this fun a ha => set_ne fun e => e1 (e ▸ ha))
          (fun a => ?_) (fun x hx => ?_) (by simp only [Pc.inv, St.at, set_same]; simp) (.inl hl.symm) (fun a => ?_) (.inl ⟨rfl, rfl⟩)
          ⟨base, fun a ha => set_ne ha⟩⟩
        · simp only [St.at, Pc.own]
          by_cases e : base = a
          · subst e
            rw [set_same, hm, if_pos rfl]
            simp only [has, Option.isSome_none, Option.isSome_some]
            simp
          · rw [set_ne (fun c => e c.symm), if_neg e]
        · simp only [St.at]
          rw [set_ne (fun e => e2 (List.mem_map.2 ⟨x, hx, e⟩))]
          exact I.live x hx
        · simp only [St.at]
          by_cases e : a = base
          · subst e; exact .inr (fun t' p' _ h' => e3 t' p' h')
          · exact .inl (set_ne e)
  | mkNext v a =>
    have P : s.list = some a := P
    have hseg := I.seg
    rw [P] at hseg
    cases F with
    | nil => cases hseg
    | cons b F =>
      obtain ⟨e1, n, e2, e3⟩ := hseg
      cases e1
      unfold go
      dsimp only
      rw [e2]
      refine ⟨_, F, rfl, I.update h _ rfl e3 (fun c => ?_) I.live
        (by simp only [Pc.inv, St.at, e2]; simp) (.inr (I.lock t _ h rfl))
        (fun c => .inl rfl) (.inl ⟨rfl, rfl⟩) ⟨0, fun a _ => rfl⟩⟩
      simp only [St.at, Pc.own, List.count_cons, beq_iff_eq]
      omega
  | mkUnlock v a =>
    have e := (I.excl h (a := a) (by simp [Pc.own])).2.2.1
    unfold go
    dsimp only
    cases hm : s.mem a with
    | none => exact absurd hm e
    | some x =>
      exact ⟨_, F, rfl, I.block h (b := a) (q := .mkNew v a) (by simp [Pc.own]) (fun _ => rfl) (.obj none)
        none (.inr ⟨rfl, rfl, rfl⟩) (by simp only [Pc.inv]; exact set_same)⟩
  | mkNew v a =>
    have P : s.mem a = some (.obj none) := P
    obtain ⟨e1, e2, e3, e4⟩ := I.excl h (a := a) (by simp [Pc.own])
    unfold go
    dsimp only
    rw [P]
    refine ⟨_, F, rfl, I.update h _ rfl (FSeg_congr I.seg fun b hb => set_ne fun e => e1 (e ▸ hb))
      (fun b => ?_) (fun x hx => ?_) trivial (.inl rfl) (fun b => ?_) (.inl ⟨rfl, rfl⟩)
      ⟨a, fun b hb => set_ne hb⟩⟩
    · simp only [St.at, Pc.own, List.map_cons, List.count_cons, beq_iff_eq]
      rw [has_set e3]
      omega
    · simp only [St.at] at hx ⊢
      rcases List.mem_cons.1 hx with rfl | hx
      · exact set_same
      · rw [set_ne (fun e => e2 (List.mem_map.2 ⟨x, hx, e⟩))]
        exact I.live x hx
    · simp only [St.at]
      by_cases e : b = a
      · subst e; exact .inr e4
      · exact .inl (set_ne e)
  | dsDtor a =>
    obtain ⟨v, P⟩ : ∃ v, s.mem a = some (.obj (some v)) := P
    unfold go
    dsimp only
    rw [P]
    exact ⟨_, F, rfl, I.block h (b := a) (q := .dsLock a) (by simp [Pc.own]) (fun _ => rfl) (.obj none)
      s.holder (.inl ⟨rfl, rfl⟩) (by simp only [Pc.inv]; exact set_same)⟩
  | dsLock a =>
    unfold go
    dsimp only
    cases hh : s.holder with
    | some x => exact ⟨s, F, rfl, I⟩
    | none =>
      exact ⟨_, F, rfl, I.update h _ rfl I.seg (fun a => rfl) I.live P (.inl rfl) (fun a => .inl rfl)
        (.inr (.inl ⟨hh, rfl, rfl⟩)) ⟨0, fun a _ => rfl⟩⟩
  | dsLink a =>
    have P : s.mem a = some (.obj none) := P
    unfold go
    dsimp only
    rw [P]
    exact ⟨_, F, rfl, I.block h (b := a) (q := .dsHead a) (by simp [Pc.own]) (fun _ => rfl) (.node s.list)
      s.holder (.inl ⟨rfl, rfl⟩) (by simp only [Pc.inv]; exact set_same)⟩
  | dsHead a =>
    have P : s.mem a = some (.node s.list) := P
    unfold go
    dsimp only
    refine ⟨_, a :: F, rfl, I.update h _ rfl ⟨rfl, _, P, I.seg⟩ (fun c => ?_) I.live trivial
      (.inr (I.lock t _ h rfl)) (fun c => .inl rfl) (.inl ⟨rfl, rfl⟩) ⟨0, fun a _ => rfl⟩⟩
    simp only [St.at, Pc.own, List.count_cons, beq_iff_eq]
    omega
  | dsUnlock =>
    unfold go
    dsimp only
    exact ⟨_, F, rfl, I.update h _ rfl I.seg (fun a => rfl) I.live trivial (.inl rfl) (fun a => .inl rfl)
      (.inr (.inr ⟨rfl, rfl, rfl⟩)) ⟨0, fun a _ => rfl⟩⟩

theorem count_filter_ne (l : List (Nat × Nat)) (a b : Nat) :
    ((l.filter (fun p => p.1 != a)).map Prod.fst).count b =
      if b = a then 0 else (l.map Prod.fst).count b := by
  induction l with
  | nil => simp
  | cons x l ih =>
    rw [List.filter_cons]
    by_cases e : x.1 = a
    · simp only [e, bne_self_eq_false, Bool.false_eq_true, if_false, ih, List.map_cons, List.count_cons,
        beq_iff_eq]
      by_cases e2 : b = a
      · rw [if_pos e2, if_pos e2]
      · rw [if_neg e2, if_neg e2, if_neg (fun c => e2 c.symm)]; rfl
    · have : (x.1 != a) = true := by simp [e]
      simp only [this, if_true, List.map_cons, List.count_cons, ih, beq_iff_eq]
      by_cases e2 : b = a
      · rw [if_pos e2, if_pos e2, if_neg (fun c => e (c.trans e2))]
      · rw [if_neg e2, if_neg e2]

theorem step_ok {s : St} {F : List Nat} (I : Inv s F) (e : Ev) :
    ∃ s' F', step s e = .ok s' ∧ Inv s' F' := by
  cases e with
  | make t v =>
    unfold step
    dsimp only
    split
    · rename_i h
      exact ⟨_, F, rfl, I.update h _ rfl I.seg (fun a => rfl) I.live trivial (.inl rfl) (fun a => .inl rfl)
        (.inl ⟨rfl, rfl⟩) ⟨0, fun a _ => rfl⟩⟩
    · exact ⟨s, F, rfl, I⟩
  | destroy t a =>
    unfold step
    dsimp only
    split
    · rename_i h
      split
      · rename_i ha
        obtain ⟨x, hx, hxa⟩ := List.any_eq_true.1 ha
        have hxa : x.1 = a := by simpa using hxa
        subst hxa
        have hm : x.1 ∈ s.objs.map Prod.fst := List.mem_map.2 ⟨x, hx, rfl⟩
        obtain ⟨e1, e2, e3⟩ := I.exclO hm
        refine ⟨_, F, rfl, I.update h _ rfl I.seg (fun c => ?_) (fun y hy => ?_) ⟨_, I.live x hx⟩ (.inl rfl)
          (fun a => .inl rfl) (.inl ⟨rfl, rfl⟩) ⟨0, fun a _ => rfl⟩⟩
        · simp only [St.at, Pc.own]
          rw [count_filter_ne]
          by_cases e : c = x.1
          · subst e; rw [if_pos rfl, if_pos rfl, e2]
          · rw [if_neg e, if_neg (fun c => e c.symm)]
        · exact I.live y (List.mem_filter.1 hy).1
      · exact ⟨s, F, rfl, I⟩
    · exact ⟨s, F, rfl, I⟩
  | go t base =>
    unfold step
    dsimp only
    split
    · rename_i h
      exact go_ok I h
    · exact ⟨s, F, rfl, I⟩

/-- Only `destroy` takes an object out of the program's hands. -/
theorem step_keeps {s s' : St} {e : Ev} (h : step s e = .ok s') {a v : Nat} (hm : (a, v) ∈ s.objs)
    (hd : ∀ t, e ≠ .destroy t a) : (a, v) ∈ s'.objs := by
  cases e with
  | make t w =>
    unfold step at h; dsimp only at h
    split at h <;> cases h <;> exact hm
  | destroy t b =>
    unfold step at h; dsimp only at h
    split at h
    · split at h
      · cases h
        refine List.mem_filter.2 ⟨hm, ?_⟩
        have : a ≠ b := fun e => hd t (by rw [e])
        simp [this]
      · cases h; exact hm
    · cases h; exact hm
  | go t b =>
    unfold step at h; dsimp only at h
    split at h
    · rename_i p _
      cases p <;> unfold go at h <;> dsimp only at h
      case mkNew w c =>
        split at h
        · cases h; exact List.mem_cons_of_mem _ hm
        · cases h
      all_goals repeat' split at h
      all_goals first
        | (cases h; done)
        | (cases h; exact hm)
    · cases h; exact hm

/-- An object in memory is in the program's hands or about to be destroyed. -/
theorem Inv.object {s : St} {F : List Nat} (I : Inv s F) {a v : Nat} (h : s.mem a = some (.obj (some v))) :
    (a, v) ∈ s.objs ∨ ∃ t : Nat, s.thr[t]? = some (.dsDtor a) := by
  have h1 := I.own a
  rw [h] at h1
  have h2 : has (some (FCell.obj (some v))) = 1 := rfl
  rw [h2] at h1
  unfold tot at h1
  by_cases hF : a ∈ F
  · exfalso
    have : ∀ {p : Option Nat} {F : List Nat}, FSeg s.mem p F → a ∈ F → ∃ n, s.mem a = some (.node n) := by
      intro p F
      induction F generalizing p with
      | nil => intro _ h; cases h
      | cons b F ih =>
        intro ⟨_, n, e2, e3⟩ hm
        rcases List.mem_cons.1 hm with rfl | hm
        · exact ⟨n, e2⟩
        · exact ih e3 hm
    obtain ⟨n, hn⟩ := this I.seg hF
    rw [h] at hn; cases hn
  · by_cases ho : a ∈ s.objs.map Prod.fst
    · obtain ⟨x, hx, rfl⟩ := List.mem_map.1 ho
      have := I.live x hx
      rw [h] at this
      cases this
      exact .inl hx
    · have e1 := List.count_eq_zero.2 hF
      have e2 := List.count_eq_zero.2 ho
      have e3 : 0 < (s.thr.map (Pc.own a)).sum := by omega
      have : ∃ p ∈ s.thr, p.own a ≠ 0 := by
        apply Classical.byContradiction
        intro hc
        have : ∀ (l : List Pc), (∀ p ∈ l, p.own a = 0) → (l.map (Pc.own a)).sum = 0 := by
          intro l
          induction l with
          | nil => intro _; rfl
          | cons x l ih =>
            intro h
            rw [List.map_cons, List.sum_cons, ih (fun p hp => h p (.tail _ hp)), h x (.head _)]
        have := this s.thr (fun p hp => Classical.byContradiction fun hne => hc ⟨p, hp, hne⟩)
        omega
      obtain ⟨p, hp, hne⟩ := this
      obtain ⟨t, ht⟩ := List.mem_iff_getElem?.1 hp
      have P := I.pc t p ht
      right
      cases p <;> simp only [Pc.own, Pc.inv] at hne P
      all_goals try exact absurd rfl hne
      all_goals
        split at hne
        · rename_i e; subst e
          first
            | exact ⟨t, ht⟩
            | (rw [h] at P; cases P; done)
            | exact absurd h (P v)
        · exact absurd rfl hne

theorem run_ok (n : Nat) (es : List Ev) :
    ∃ s F, runAll step (St.init n) es = .ok s ∧ Inv s F := by
  obtain ⟨s, h1, F, h2⟩ := runAll_inv (I := fun s => ∃ F, Inv s F) (step := step)
    (fun s e ⟨F, I⟩ => by
      obtain ⟨s', F', h1, h2⟩ := step_ok I e
      exact ⟨s', h1, F', h2⟩) es (St.init n) ⟨[], init_inv n⟩
  exact ⟨s, F, h1, h2⟩

/-- How many steps a thread still has to do. -/
def Pc.rank : Pc → Nat
  | .idle => 0
  | .mkLock _ => 5
  | .mkHead _ => 4
  | .mkNext _ _ => 3
  | .mkUnlock _ _ => 2
  | .mkNew _ _ => 1
  | .dsDtor _ => 5
  | .dsLock _ => 4
  | .dsLink _ => 3
  | .dsHead _ => 2
  | .dsUnlock => 1

def rank (s : St) : Nat := (s.thr.map Pc.rank).sum

theorem at_rank {s : St} {t : Nat} {p q : Pc} (h : s.thr[t]? = some p) (s' : St)
    (hs : s'.thr = s.thr.set t q) (hr : q.rank < p.rank) : rank s' < rank s := by
  have := sum_set Pc.rank s.thr t q p h
  unfold rank
  rw [hs]
  omega

/-- A thread that does not have to wait comes closer to the end. -/
theorem go_rank {s : St} {F : List Nat} (I : Inv s F) {t base : Nat} {p : Pc} (h : s.thr[t]? = some p)
    (hp : p ≠ .idle) (hb : s.mem base = none) (hw : p.crit = true ∨ s.holder = none) :
    ∃ s' F', go s t base p = .ok s' ∧ Inv s' F' ∧ rank s' < rank s := by
  obtain ⟨s', F', h1, h2⟩ := go_ok (base := base) I h
  refine ⟨s', F', h1, h2, ?_⟩
  cases p with
  | idle => exact absurd rfl hp
  | mkLock v =>
    rcases hw with hw | hw
    · cases hw
    · unfold go at h1; dsimp only at h1; rw [hw] at h1; cases h1
      exact at_rank h _ rfl (by simp [Pc.rank])
  | mkHead v =>
    unfold go at h1
    dsimp only at h1
    cases hl : s.list with
    | some a => rw [hl] at h1; cases h1; exact at_rank h _ rfl (by simp [Pc.rank])
    | none => rw [hl] at h1; dsimp only at h1; rw [hb] at h1; cases h1; exact at_rank h _ rfl (by simp [Pc.rank])
  | mkNext v a =>
    unfold go at h1
    dsimp only at h1
    split at h1
    · cases h1; exact at_rank h _ rfl (by simp [Pc.rank])
    · cases h1
  | mkUnlock v a =>
    unfold go at h1
    dsimp only at h1
    split at h1
    · cases h1; exact at_rank h _ rfl (by simp [Pc.rank])
    · cases h1
  | mkNew v a =>
    unfold go at h1
    dsimp only at h1
    split at h1
    · cases h1; exact at_rank h _ rfl (by simp [Pc.rank])
    · cases h1
  | dsDtor a =>
    unfold go at h1
    dsimp only at h1
    split at h1
    · cases h1; exact at_rank h _ rfl (by simp [Pc.rank])
    · cases h1
  | dsLock a =>
    rcases hw with hw | hw
    · cases hw
    · unfold go at h1; dsimp only at h1; rw [hw] at h1; cases h1
      exact at_rank h _ rfl (by simp [Pc.rank])
  | dsLink a =>
    unfold go at h1
    dsimp only at h1
    split at h1
    · cases h1; exact at_rank h _ rfl (by simp [Pc.rank])
    · cases h1
  | dsHead a => unfold go at h1; dsimp only at h1; cases h1; exact at_rank h _ rfl (by simp [Pc.rank])
  | dsUnlock => unfold go at h1; dsimp only at h1; cases h1; exact at_rank h _ rfl (by simp [Pc.rank])

theorem at_vals {s : St} {t : Nat} {p q : Pc} (h : s.thr[t]? = some p) (s' : St) (v : Nat)
    (hs : s'.thr = s.thr.set t q)
    (ho : (s'.objs.map Prod.snd).count v + q.pend v = (s.objs.map Prod.snd).count v + p.pend v) :
    vals s' v = vals s v := by
  have := sum_set (Pc.pend v) s.thr t q p h
  unfold vals
  rw [hs]
  omega

theorem go_vals {s s' : St} {t base : Nat} {p : Pc} (h : s.thr[t]? = some p) (h1 : go s t base p = .ok s')
    (v : Nat) : vals s' v = vals s v := by
  cases p <;> unfold go at h1 <;> dsimp only at h1
  case mkNew w a =>
    split at h1
    · cases h1
      refine at_vals h _ v rfl ?_
      simp only [St.at, Pc.pend, List.map_cons, List.count_cons, beq_iff_eq]
      omega
    · cases h1
  all_goals repeat' split at h1
  all_goals first
    | (cases h1; done)
    | (cases h1; rfl)
    | (cases h1; exact at_vals h _ v rfl rfl)

/-- Either all threads are done or one of them can go on. -/
theorem progress {s : St} {F : List Nat} (I : Inv s F) (hn : ¬ ∀ p ∈ s.thr, p = .idle) :
    ∃ t base s' F', step s (.go t base) = .ok s' ∧ Inv s' F' ∧ rank s' < rank s ∧
      ∀ v, vals s' v = vals s v := by
  obtain ⟨N, hN⟩ := I.fin
  have key : ∃ (t : Nat) (p : Pc), s.thr[t]? = some p ∧ p ≠ .idle ∧ (p.crit = true ∨ s.holder = none) := by
    cases hh : s.holder with
    | some t =>
      obtain ⟨p, h1, h2⟩ := I.held t hh
      exact ⟨t, p, h1, fun e => (by subst e; cases h2), .inl h2⟩
    | none =>
      have : ∃ p ∈ s.thr, p ≠ Pc.idle := by
        apply Classical.byContradiction
        intro hc
        exact hn fun p hp => Classical.byContradiction fun hne => hc ⟨p, hp, hne⟩
      obtain ⟨p, hp, hne⟩ := this
      obtain ⟨t, ht⟩ := List.mem_iff_getElem?.1 hp
      exact ⟨t, p, ht, hne, .inr rfl⟩
  obtain ⟨t, p, h1, h2, h3⟩ := key
  obtain ⟨s', F', h4, h5, h6⟩ := go_rank I h1 h2 (hN N (Nat.le_refl _)) h3
  refine ⟨t, N, s', F', ?_, h5, h6, go_vals h1 h4⟩
  unfold step
  dsimp only
  rw [h1]
  exact h4

theorem finish : ∀ (k : Nat) {s : St} {F : List Nat}, Inv s F → rank s ≤ k →
    ∃ gs s', (∀ e ∈ gs, ∃ t b, e = Ev.go t b) ∧ runAll step s gs = .ok s' ∧ (∀ p ∈ s'.thr, p = .idle) ∧
      ∀ v, vals s' v = vals s v
  | k, s, F, I, hk => by
    by_cases hn : ∀ p ∈ s.thr, p = .idle
    · exact ⟨[], s, fun e he => (by cases he), rfl, hn, fun v => rfl⟩
    · obtain ⟨t, b, s1, F1, h1, h2, h3, hv⟩ := progress I hn
      cases k with
      | zero => omega
      | succ k =>
        obtain ⟨gs, s', h4, h5, h6, h7⟩ := finish k h2 (by omega)
        refine ⟨.go t b :: gs, s', fun e he => ?_, ?_, h6, fun v => (h7 v).trans (hv v)⟩
        · rcases List.mem_cons.1 he with rfl | he
          · exact ⟨t, b, rfl⟩
          · exact h4 e he
        · unfold runAll; rw [h1]; exact h5

/-- With no object and no thread under way, all memory is in the free list. -/
theorem Inv.toList {s : St} {F : List Nat} (I : Inv s F) (hi : ∀ p ∈ s.thr, p = .idle) (ho : s.objs = []) :
    FList.Inv s.toList [] F := by
  have h0 : ∀ a, (s.thr.map (Pc.own a)).sum = 0 := by
    intro a
    have : ∀ (l : List Pc), (∀ p ∈ l, p = .idle) → (l.map (Pc.own a)).sum = 0 := by
      intro l
      induction l with
      | nil => intro _; rfl
      | cons x l ih =>
        intro h
        rw [List.map_cons, List.sum_cons, ih (fun p hp => h p (.tail _ hp)), h x (.head _)]
        rfl
    exact this _ hi
  have h1 : ∀ a, F.count a = has (s.mem a) := by
    intro a
    have := I.own a
    unfold tot at this
    rw [h0, ho] at this
    simpa using this
  refine ⟨I.seg, ?_, fun p hp => (by cases hp), fun a ha => .inl ?_⟩
  · rw [List.map_nil, List.append_nil, List.nodup_iff_count]
    intro a
    rw [h1]; unfold has; split <;> omega
  · apply List.count_pos_iff.1
    rw [h1]
    cases h : s.mem a with
    | none => exact absurd h ha
    | some x => exact Nat.one_pos

end Mp
end Rpp
