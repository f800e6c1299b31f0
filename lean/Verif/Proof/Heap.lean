import Verif.Model.Heap
import Verif.Proof.Vec

/-! Binary heaps in a list, and the memory operations that implement them. -/

namespace Rpp
open Spec

variable {α : Type _}

/-- Exchange two elements. -/
def lswap (l : List α) (i j : Nat) : List α :=
  match l[i]?, l[j]? with
  | some x, some y => (l.set i y).set j x
  | _, _ => l

theorem lswap_eq {l : List α} {i j : Nat} (hi : i < l.length) (hj : j < l.length) :
    lswap l i j = (l.set i l[j]).set j l[i] := by
  simp [lswap, hi, hj]

@[simp] theorem lswap_length (l : List α) (i j : Nat) : (lswap l i j).length = l.length := by
  unfold lswap; split <;> simp

theorem lswap_get {l : List α} {i j k : Nat} (hi : i < l.length) (hj : j < l.length)
    (hk : k < (lswap l i j).length) :
    (lswap l i j)[k] = if k = j then l[i] else if k = i then l[j] else l[k]'(by simpa using hk) := by
  simp only [lswap_eq hi hj, List.getElem_set]
  by_cases h1 : k = j
  · simp [h1]
  · by_cases h2 : k = i
    · subst h2
      have : ¬ j = k := fun e => h1 e.symm
      simp [this, h1]
    · have a : ¬ j = k := fun e => h1 e.symm
      have b : ¬ i = k := fun e => h2 e.symm
      simp [a, b, h1, h2]

theorem lswap_perm {l : List α} {i j : Nat} (hi : i < l.length) (hj : j < l.length) :
    (lswap l i j).Perm l := by
  rw [lswap_eq hi hj]
  exact List.set_set_perm hi hj

namespace PHeap

/-- No element precedes its parent. -/
def HeapOrd (lt : α → α → Bool) (l : List α) : Prop :=
  ∀ i p (_ : i < l.length) (hp : p < l.length), 0 < i → p = (i - 1) / 2 → lt l[i] l[p] = false

/-- Heap order except possibly between `idx` and its parent. -/
def UpInv (lt : α → α → Bool) (l : List α) (idx : Nat) : Prop :=
  (∀ i p (_ : i < l.length) (hp : p < l.length), 0 < i → p = (i - 1) / 2 → i ≠ idx →
    lt l[i] l[p] = false) ∧
  (∀ i q (_ : i < l.length) (hq : q < l.length), 0 < i → 0 < idx → (i - 1) / 2 = idx →
    q = (idx - 1) / 2 → lt l[i] l[q] = false)

/-- Heap order except possibly between `idx` and its children. -/
def DownInv (lt : α → α → Bool) (l : List α) (idx : Nat) : Prop :=
  (∀ i p (_ : i < l.length) (hp : p < l.length), 0 < i → p = (i - 1) / 2 → p ≠ idx →
    lt l[i] l[p] = false) ∧
  (∀ i q (_ : i < l.length) (hq : q < l.length), 0 < i → 0 < idx → (i - 1) / 2 = idx →
    q = (idx - 1) / 2 → lt l[i] l[q] = false)

theorem irrefl {lt : α → α → Bool} (hs : SWO lt) (a : α) : lt a a = false := by
  cases h : lt a a
  · rfl
  · have := hs.asymm h; rw [h] at this; cases this

theorem UpInv.step {lt : α → α → Bool} (hs : SWO lt) {l : List α} {idx p : Nat}
    (hi : idx < l.length) (h0 : 0 < idx) (hp : p = (idx - 1) / 2) (hpl : p < l.length)
    (hlt : lt l[idx] l[p] = true) (u : UpInv lt l idx) : UpInv lt (lswap l idx p) p := by
  obtain ⟨u1, u2⟩ := u
  have hne : p ≠ idx := by omega
  constructor
  · intro i q hil hql hi0 hq hip
    have hil' : i < l.length := by simpa using hil
    have hql' : q < l.length := by simpa using hql
    rw [lswap_get hi hpl, lswap_get hi hpl]
    rw [if_neg hip]
    by_cases h1 : i = idx
    · subst h1
      have : q = p := by omega
      subst this
      simp only [if_true]
      exact hs.asymm hlt
    · rw [if_neg h1]
      by_cases h2 : q = p
      · subst h2
        simp only [if_true]
        exact hs.ntrans (u1 i q hil' hql' hi0 hq h1) (hs.asymm hlt)
      · rw [if_neg h2]
        by_cases h3 : q = idx
        · subst h3
          simp only [if_true]
          exact u2 i p hil' hpl hi0 h0 hq.symm hp
        · rw [if_neg h3]
          exact u1 i q hil' hql' hi0 hq h1
  · intro i q hil hql hi0 hp0 hip hq
    have hil' : i < l.length := by simpa using hil
    have hql' : q < l.length := by simpa using hql
    rw [lswap_get hi hpl, lswap_get hi hpl]
    have e1 : i ≠ p := by omega
    have e2 : q ≠ p := by omega
    have e3 : q ≠ idx := by omega
    rw [if_neg e1, if_neg e2, if_neg e3]
    have up := u1 p q hpl hql' hp0 hq hne
    by_cases h1 : i = idx
    · rw [if_pos h1]; exact up
    · rw [if_neg h1]
      exact hs.ntrans (u1 i p hil' hpl hi0 hip.symm h1) up

theorem UpInv.done {lt : α → α → Bool} {l : List α} {idx : Nat} (u : UpInv lt l idx)
    (h : idx = 0 ∨ ∃ (hi : idx < l.length) (hp : (idx - 1) / 2 < l.length),
      lt l[idx] l[(idx - 1) / 2] = false) : HeapOrd lt l := by
  intro i p hil hpl hi0 hp
  by_cases h1 : i = idx
  · rcases h with h | ⟨_, _, h⟩
    · omega
    · subst h1; subst hp; exact h
  · exact u.1 i p hil hpl hi0 hp h1

/-- A new last element disturbs the order only towards its parent. -/
theorem HeapOrd.push {lt : α → α → Bool} {l : List α} (o : HeapOrd lt l) (x : α) :
    UpInv lt (l ++ [x]) l.length := by
  constructor
  · intro i p hi hp hi0 hpi hne
    simp only [List.length_append, List.length_singleton] at hi hp
    have h1 : i < l.length := by omega
    have h2 : p < l.length := by omega
    rw [List.getElem_append_left h1, List.getElem_append_left h2]
    exact o i p h1 h2 hi0 hpi
  · intro i q hi hq hi0 _ hii
    simp only [List.length_append, List.length_singleton] at hi
    omega

theorem DownInv.step {lt : α → α → Bool} (hs : SWO lt) {l : List α} {idx c : Nat}
    (hi : idx < l.length) (hc0 : 0 < c) (hc : (c - 1) / 2 = idx) (hcl : c < l.length)
    (hlt : lt l[c] l[idx] = true)
    (hmin : ∀ i (h : i < l.length), 0 < i → (i - 1) / 2 = idx → lt l[i] l[c] = false)
    (u : DownInv lt l idx) : DownInv lt (lswap l idx c) c := by
  obtain ⟨u1, u2⟩ := u
  have hne : c ≠ idx := by omega
  constructor
  · intro i q hil hql hi0 hq hqc
    have hil' : i < l.length := by simpa using hil
    have hql' : q < l.length := by simpa using hql
    rw [lswap_get hi hcl, lswap_get hi hcl]
    rw [if_neg hqc]
    by_cases h1 : i = c
    · have : q = idx := by omega
      rw [if_pos h1, if_pos this]
      exact hs.asymm hlt
    · rw [if_neg h1]
      by_cases h2 : i = idx
      · -- parent of idx
        have h3 : q ≠ idx := by omega
        rw [if_pos h2, if_neg h3]
        exact u2 c q hcl hql' hc0 (by omega) hc (by omega)
      · rw [if_neg h2]
        by_cases h3 : q = idx
        · rw [if_pos h3]
          exact hmin i hil' hi0 (by omega)
        · rw [if_neg h3]
          exact u1 i q hil' hql' hi0 hq h3
  · intro i q hil hql hi0 _ hic hq
    have hil' : i < l.length := by simpa using hil
    have hql' : q < l.length := by simpa using hql
    rw [lswap_get hi hcl, lswap_get hi hcl]
    have e1 : i ≠ c := by omega
    have e2 : i ≠ idx := by omega
    have e3 : q = idx := by omega
    have e4 : q ≠ c := by omega
    rw [if_neg e1, if_neg e2, if_neg e4, if_pos e3]
    exact u1 i c hil' hcl hi0 hic.symm hne

theorem DownInv.done {lt : α → α → Bool} {l : List α} {idx : Nat} (u : DownInv lt l idx)
    (h : ∀ i (hi : i < l.length) (hx : idx < l.length), 0 < i → (i - 1) / 2 = idx →
      lt l[i] l[idx] = false) : HeapOrd lt l := by
  intro i p hil hpl hi0 hp
  by_cases h1 : p = idx
  · subst h1; exact h i hil hpl hi0 hp.symm
  · exact u.1 i p hil hpl hi0 hp h1

theorem HeapOrd.min {lt : α → α → Bool} (hs : SWO lt) {l : List α} (o : HeapOrd lt l)
    (h0 : 0 < l.length) : ∀ i (hi : i < l.length), lt l[i] l[0] = false := by
  intro i
  induction i using Nat.strongRecOn with
  | ind i ih =>
    intro hi
    by_cases h : i = 0
    · subst h; exact irrefl hs _
    · have hp : (i - 1) / 2 < l.length := by omega
      exact hs.ntrans (o i _ hi hp (by omega) rfl) (ih _ (by omega) hp)

theorem HeapOrd.isMin {lt : α → α → Bool} (hs : SWO lt) {l b : List α} (o : HeapOrd lt l)
    (hp : l.Perm b) (h0 : 0 < l.length) : IsMin lt b l[0] := by
  refine ⟨hp.mem_iff.mp (List.getElem_mem _), ?_⟩
  intro y hy
  obtain ⟨i, hi, rfl⟩ := List.mem_iff_getElem.mp (hp.mem_iff.mpr hy)
  exact o.min hs h0 i hi

/-- The list after the last element has replaced the first. -/
def rootReplaced (l : List α) : List α :=
  match l.getLast? with
  | some z => (l.set 0 z).dropLast
  | none => []

theorem rootReplaced_down {lt : α → α → Bool} {l : List α} (o : HeapOrd lt l) :
    DownInv lt (rootReplaced l) 0 := by
  unfold rootReplaced
  split
  · rename_i z hz
    constructor
    · intro i p hi hp hi0 hpi hp0
      simp only [List.length_dropLast, List.length_set] at hi hp
      rw [List.getElem_dropLast, List.getElem_dropLast, List.getElem_set_ne (by omega),
        List.getElem_set_ne (by omega)]
      exact o i p (by omega) (by omega) hi0 hpi
    · intro i q _ _ _ h; omega
  · constructor <;> intro i _ hi <;> simp at hi

theorem rootReplaced_perm {l : List α} (h : 0 < l.length) : l.Perm (l[0] :: rootReplaced l) := by
  cases l with
  | nil => simp at h
  | cons x t =>
    simp only [List.getElem_cons_zero]
    refine List.Perm.cons _ ?_
    unfold rootReplaced
    rcases List.eq_nil_or_concat t with rfl | ⟨s, z, rfl⟩
    · simp
    · have e : (x :: (s ++ [z])).getLast? = some z := List.getLast?_concat (l := x :: s)
      simp only [List.concat_eq_append, e, List.set_cons_zero]
      have e2 : (z :: (s ++ [z])).dropLast = z :: s := List.dropLast_concat (l₁ := z :: s)
      rw [e2]
      exact List.perm_append_comm

@[simp] theorem rootReplaced_length (l : List α) : (rootReplaced l).length = l.length - 1 := by
  unfold rootReplaced
  split
  · simp
  · rename_i h; simp only [List.getLast?_eq_none_iff] at h; simp [h]

/-! ### Memory operations -/

theorem reserve_eq {T : Traits} {h : Heap α} {v : Vec} {l : List α} (r : Vec.Rep T h v l) (n : Nat) :
    reserve T v n h = Vec.reserve T v n h := by
  unfold reserve Vec.reserve
  by_cases hn : n ≤ v.cap
  · rw [if_pos hn, if_pos hn]
  · rw [if_neg hn, if_neg hn]
    simp only [bind, StateT.bind, Except.bind]
    unfold alloc
    rw [if_neg (by omega)]
    by_cases hl : n > h.lim
    · rw [if_pos hl]
    · rw [if_neg hl]
      cases hd : v.data with
      | some id => simp
      | none =>
        obtain ⟨r1, r2⟩ := r
        simp only [hd] at r2
        obtain ⟨_, rfl⟩ := r2
        have e : v.len = 0 := r1
        simp only [e, Option.isSome_none, Bool.false_and, Bool.false_eq_true, if_false]
        by_cases ht : T.triv = true
        · simp [ht, memcpy, pure, StateT.pure, Except.pure]
        · simp [ht, forLoop, pure, StateT.pure, Except.pure]

theorem wp_congr {O : Prop} {β : Type _} {m m' : M α β} {h : Heap α} {Q : β → Heap α → Prop}
    (e : m h = m' h) (w : wp O m' h Q) : wp O m h Q := by
  unfold wp at *; rw [e]; exact w

theorem wp_reserve {O : Prop} {T : Traits} {n : Nat} {h : Heap α} {v : Vec} {l : List α}
    (hw : h.WF) (r : Vec.Rep T h v l) (hO : h.lim < n → O) :
    wp O (reserve T v n) h (fun v' h' => Vec.Rep T h' v' l ∧ Frame h v.data h' v'.data ∧
      v'.cap = max v.cap n) :=
  wp_congr (reserve_eq r n) (Vec.wp_reserve hw r hO)

theorem wp_grow {O : Prop} {T : Traits} {h : Heap α} {v : Vec} {l : List α}
    (hw : h.WF) (r : Vec.Rep T h v l) (hO : h.lim < max 8 (2 * v.cap) → O) :
    wp O (grow T v) h (fun v' h' => Vec.Rep T h' v' l ∧ Frame h v.data h' v'.data ∧
      v.cap < v'.cap ∧ v'.cap ≤ max 8 (2 * v.cap)) :=
  wp_congr (reserve_eq r _) (Vec.wp_grow hw r hO)

theorem moveOut_ok {T : Traits} {id i : Nat} {h : Heap α} {b : Buf α} {x : α}
    (hb : h.blk id = some b) (hi : b[i]? = some (some x)) :
    moveOut T (some id) i h =
      .ok (x, h.put id (some (if T.triv then b else b.set i none))) := by
  by_cases ht : T.triv = true
  · have := put_self h id
    rw [hb] at this
    simp [moveOut, hb, hi, ht, this]
  · simp [moveOut, hb, hi, ht]

theorem wp_swap {O : Prop} {T : Traits} {h : Heap α} {v : Vec} {l : List α} {i j : Nat}
    (r : Vec.Rep T h v l) (hi : i < l.length) (hj : j < l.length) (hij : i ≠ j) :
    wp O (swap T v i j) h (fun _ h' => Vec.Rep T h' v (lswap l i j) ∧ Frame h v.data h' v.data) := by
  obtain ⟨r1, r2⟩ := r
  cases hd : v.data with
  | none => simp only [hd] at r2; simp [r2.2] at hi
  | some id =>
    simp only [hd] at r2
    obtain ⟨hid, hc0, tail, hb, ht, htr⟩ := r2
    have gi : (l.map some ++ tail)[i]? = some (some l[i]) := by
      rw [List.getElem?_append_left (by simpa using hi)]; simp [hi]
    have gj : (l.map some ++ tail)[j]? = some (some l[j]) := by
      rw [List.getElem?_append_left (by simpa using hj)]; simp [hj]
    have fin : ((((l.map some ++ tail).set i (some l[j])).set j (some l[i])) : Buf α)
        = (lswap l i j).map some ++ tail := by
      rw [lswap_eq hi hj, List.set_append_left _ _ (by simpa using hi),
        List.set_append_left _ _ (by simpa using hj)]
      simp
    have q : Vec.Rep T (h.put id (some ((lswap l i j).map some ++ tail))) v (lswap l i j) := by
      refine ⟨by simpa using r1, ?_⟩
      simp only [hd]
      exact ⟨hid, hc0, tail, by simp, by simpa using ht, htr⟩
    unfold swap
    rw [hd, wp_bind]
    refine wp_ok (moveOut_ok hb gi) ?_
    rw [wp_bind]
    by_cases htv : T.triv = true
    · simp only [htv, if_true]
      refine wp_ok (moveOut_ok (put_blk_self _ _ _) gj) ?_
      simp only [htv, if_true, put_put]
      rw [wp_bind]
      refine wp_construct (put_blk_self _ _ _) (by simp; omega) (Or.inl htv) ?_
      rw [put_put]
      refine wp_construct (put_blk_self _ _ _) (by simp; omega) (Or.inl htv) ?_
      rw [put_put, fin]
      exact ⟨q, Frame.put _ _ _⟩
    · simp only [htv, Bool.false_eq_true, if_false]
      have gj' : ((l.map some ++ tail).set i none)[j]? = some (some l[j]) := by
        rw [List.getElem?_set_ne hij]; exact gj
      refine wp_ok (moveOut_ok (put_blk_self _ _ _) gj') ?_
      simp only [htv, Bool.false_eq_true, if_false, put_put]
      rw [wp_bind]
      refine wp_construct (put_blk_self _ _ _) (by simp; omega) (Or.inr ?_) ?_
      · rw [List.getElem?_set_ne (Ne.symm hij), List.getElem?_set_self (by simp; omega)]
      rw [put_put]
      refine wp_construct (put_blk_self _ _ _) (by simp; omega) (Or.inr ?_) ?_
      · rw [List.getElem?_set_ne hij, List.getElem?_set_self (by simp; omega)]
      have e : (((((l.map some ++ tail).set i none).set j none).set i (some l[j])).set j (some l[i]) : Buf α)
          = ((l.map some ++ tail).set i (some l[j])).set j (some l[i]) := by
        rw [List.set_comm _ _ (Ne.symm hij) (l := (l.map some ++ tail).set i none), List.set_set, List.set_set]
      rw [put_put, e, fin]
      exact ⟨q, Frame.put _ _ _⟩

theorem wp_reheapUp {O : Prop} {T : Traits} {lt : α → α → Bool} (hs : SWO lt) {v : Vec} :
    ∀ (fuel idx : Nat) (h : Heap α) (l : List α), h.WF → Vec.Rep T h v l → idx < fuel →
    idx < l.length → UpInv lt l idx →
    wp O (reheapUp T lt v fuel idx) h (fun _ h' => ∃ l', Vec.Rep T h' v l' ∧
      Frame h v.data h' v.data ∧ l'.Perm l ∧ HeapOrd lt l') := by
  intro fuel
  induction fuel with
  | zero => intro idx h l _ _ hf; omega
  | succ fuel ih =>
    intro idx h l hw r hf hi u
    unfold reheapUp
    by_cases h0 : idx = 0
    · rw [if_pos h0, wp_pure]
      exact ⟨l, r, Frame.refl _ _, .refl _, u.done (Or.inl h0)⟩
    · rw [if_neg h0]
      have hp : (idx - 1) / 2 < l.length := by omega
      rw [wp_bind]
      refine Vec.wp_read r hi ?_
      rw [wp_bind]
      refine Vec.wp_read r hp ?_
      by_cases hlt : lt l[idx] l[(idx - 1) / 2] = true
      · rw [if_pos hlt, wp_bind]
        refine wp_mono (wp_swap r hi hp (by omega)) (fun o => o) ?_
        rintro _ h1 ⟨r1, f1⟩
        have hw1 := f1.wf hw r.lt
        refine wp_mono (ih _ h1 _ hw1 r1 (by omega) (by simpa using hp)
          (u.step hs hi (by omega) rfl hp hlt)) (fun o => o) ?_
        rintro _ h2 ⟨l', r2, f2, p2, o2⟩
        exact ⟨l', r2, f1.trans f2 hw r.lt, p2.trans (lswap_perm hi hp), o2⟩
      · rw [if_neg hlt, wp_pure]
        exact ⟨l, r, Frame.refl _ _, .refl _, u.done (Or.inr ⟨hi, hp, by simpa using hlt⟩)⟩

theorem wp_reheapDown {O : Prop} {T : Traits} {lt : α → α → Bool} (hs : SWO lt) {v : Vec} :
    ∀ (fuel idx : Nat) (h : Heap α) (l : List α), h.WF → Vec.Rep T h v l → l.length < fuel + idx →
    idx < l.length → DownInv lt l idx →
    wp O (reheapDown T lt v fuel idx) h (fun _ h' => ∃ l', Vec.Rep T h' v l' ∧
      Frame h v.data h' v.data ∧ l'.Perm l ∧ HeapOrd lt l') := by
  intro fuel
  induction fuel with
  | zero => intro idx h l _ _ hf; omega
  | succ fuel ih =>
    intro idx h l hw r hf hi u
    have go : ∀ c (hc : c < l.length), 0 < c → (c - 1) / 2 = idx → lt l[c] l[idx] = true →
        (∀ i (h : i < l.length), 0 < i → (i - 1) / 2 = idx → lt l[i] l[c] = false) →
        wp O (do swap T v idx c; reheapDown T lt v fuel c) h (fun _ h' => ∃ l', Vec.Rep T h' v l' ∧
          Frame h v.data h' v.data ∧ l'.Perm l ∧ HeapOrd lt l') := by
      intro c hc h0 hpc hlt hmin
      rw [wp_bind]
      refine wp_mono (wp_swap r hi hc (by omega)) (fun o => o) ?_
      rintro _ h1 ⟨r1, f1⟩
      have hw1 := f1.wf hw r.lt
      refine wp_mono (ih _ h1 _ hw1 r1 (by simp; omega) (by simpa using hc)
        (u.step hs hi h0 hpc hc hlt hmin)) (fun o => o) ?_
      rintro _ h2 ⟨l', r2, f2, p2, o2⟩
      exact ⟨l', r2, f1.trans f2 hw r.lt, p2.trans (lswap_perm hi hc), o2⟩
    have stop : (∀ i (hi : i < l.length) (hx : idx < l.length), 0 < i → (i - 1) / 2 = idx →
        lt l[i] l[idx] = false) →
        wp O (pure () : M α Unit) h (fun _ h' => ∃ l', Vec.Rep T h' v l' ∧
          Frame h v.data h' v.data ∧ l'.Perm l ∧ HeapOrd lt l') := by
      intro hstop
      rw [wp_pure]
      exact ⟨l, r, Frame.refl _ _, .refl _, u.done hstop⟩
    unfold reheapDown
    rw [r.1]
    by_cases hr : idx * 2 + 1 + 1 < l.length
    · rw [if_pos hr]
      have hl : idx * 2 + 1 < l.length := by omega
      rw [wp_bind]
      refine Vec.wp_read r hi ?_
      rw [wp_bind]
      refine Vec.wp_read r hl ?_
      rw [wp_bind]
      refine Vec.wp_read r hr ?_
      by_cases h1 : (lt l[idx * 2 + 1] l[idx] && !lt l[idx * 2 + 1 + 1] l[idx * 2 + 1]) = true
      · rw [if_pos h1]
        simp only [Bool.and_eq_true, Bool.not_eq_true'] at h1
        refine go _ hl (by omega) (by omega) h1.1 ?_
        intro i hil hi0 hii
        have : i = idx * 2 + 1 ∨ i = idx * 2 + 1 + 1 := by omega
        rcases this with rfl | rfl
        · exact irrefl hs _
        · exact h1.2
      · rw [if_neg h1]
        by_cases h2 : (lt l[idx * 2 + 1 + 1] l[idx] && !lt l[idx * 2 + 1] l[idx * 2 + 1 + 1]) = true
        · rw [if_pos h2]
          simp only [Bool.and_eq_true, Bool.not_eq_true'] at h2
          refine go _ hr (by omega) (by omega) h2.1 ?_
          intro i hil hi0 hii
          have : i = idx * 2 + 1 ∨ i = idx * 2 + 1 + 1 := by omega
          rcases this with rfl | rfl
          · exact h2.2
          · exact irrefl hs _
        · rw [if_neg h2]
          refine stop ?_
          intro i hil _ hi0 hii
          have : i = idx * 2 + 1 ∨ i = idx * 2 + 1 + 1 := by omega
          have hs1 := @SWO.asymm _ _ hs l[idx * 2 + 1] l[idx * 2 + 1 + 1]
          have t1 := @SWO.ntrans _ _ hs l[idx * 2 + 1] l[idx * 2 + 1 + 1] l[idx]
          have t2 := @SWO.ntrans _ _ hs l[idx * 2 + 1 + 1] l[idx * 2 + 1] l[idx]
          have s2 := @SWO.asymm _ _ hs l[idx * 2 + 1 + 1] l[idx * 2 + 1]
          rcases this with rfl | rfl <;> grind
    · rw [if_neg hr]
      by_cases hl : idx * 2 + 1 < l.length
      · rw [if_pos hl, wp_bind]
        refine Vec.wp_read r hi ?_
        rw [wp_bind]
        refine Vec.wp_read r hl ?_
        by_cases hlt : lt l[idx * 2 + 1] l[idx] = true
        · rw [if_pos hlt]
          refine wp_mono (wp_swap r hi hl (by omega)) (fun o => o) ?_
          rintro _ h1 ⟨r1, f1⟩
          have d := u.step hs hi (by omega) (by omega) hl hlt (by
            intro i hil hi0 hii
            have : i = idx * 2 + 1 := by omega
            subst this; exact irrefl hs _)
          refine ⟨_, r1, f1, lswap_perm hi hl, d.done ?_⟩
          intro i hil _ hi0 hii
          simp only [lswap_length] at hil
          omega
        · rw [if_neg hlt]
          refine stop ?_
          intro i hil _ hi0 hii
          have : i = idx * 2 + 1 := by omega
          subst this; simpa using hlt
      · rw [if_neg hl]
        refine stop ?_
        intro i hil _ hi0 hii
        omega

/-- Storing a new last element when there is room. -/
theorem wp_append {O : Prop} {T : Traits} {h : Heap α} {v : Vec} {l : List α} {x : α}
    (r : Vec.Rep T h v l) (hc : v.len < v.cap) {Q : Unit → Heap α → Prop}
    (hq : ∀ h', Vec.Rep T h' { v with len := v.len + 1 } (l ++ [x]) → Frame h v.data h' v.data →
      Q () h') :
    wp O (construct T v.data v.len x) h Q := by
  obtain ⟨r1, r2⟩ := r
  cases hd : v.data with
  | none => simp only [hd] at r2; omega
  | some id =>
    simp only [hd] at r2
    obtain ⟨hid, hc0, tail, hb, ht, htr⟩ := r2
    cases tail with
    | nil => simp at ht; omega
    | cons c tail =>
      have hlen : v.len = (l.map some).length := by simpa using r1
      refine wp_construct hb (by simp; omega) ?_ ?_
      · rcases htr with htr | htr
        · exact Or.inl htr
        · right; rw [hlen, get_mid, htr c (by simp)]
      · rw [hlen, set_mid]
        refine hq _ ?_ (by rw [hd]; exact Frame.put _ _ _)
        refine ⟨by simp [r1], ?_⟩
        simp only [hd]
        refine ⟨hid, hc0, tail, by simp, by simp at ht ⊢; omega, ?_⟩
        rcases htr with htr | htr
        · exact Or.inl htr
        · exact Or.inr fun c hc => htr c (by simp [hc])

theorem wp_push {O : Prop} {T : Traits} {lt : α → α → Bool} (hs : SWO lt) {h : Heap α} {v : Vec}
    {l : List α} {x : α} (hw : h.WF) (r : Vec.Rep T h v l) (o : HeapOrd lt l)
    (hO : v.len = v.cap → h.lim < max 8 (2 * v.cap) → O) :
    wp O (push T lt v x) h (fun v' h' => (∃ l', Vec.Rep T h' v' l' ∧ l'.Perm (x :: l) ∧
      HeapOrd lt l') ∧ Frame h v.data h' v'.data ∧ v'.cap ≤ max v.cap (max 8 (2 * v.len))) := by
  unfold push
  have rest : ∀ (v1 : Vec) (h1 : Heap α), Vec.Rep T h1 v1 l → h1.WF → Frame h v.data h1 v1.data →
      v1.len < v1.cap → v1.cap ≤ max v.cap (max 8 (2 * v.len)) →
      wp O (do
        construct T v1.data v1.len x
        let v2 : Vec := { v1 with len := v1.len + 1 }
        reheapUp T lt v2 (v2.len + 1) (v2.len - 1)
        return v2) h1 (fun v' h' => (∃ l', Vec.Rep T h' v' l' ∧ l'.Perm (x :: l) ∧
          HeapOrd lt l') ∧ Frame h v.data h' v'.data ∧ v'.cap ≤ max v.cap (max 8 (2 * v.len))) := by
    intro v1 h1 r1 hw1 f1 hlt hcap
    rw [wp_bind]
    refine wp_append (x := x) r1 hlt ?_
    intro h2 r2 f2
    simp only
    rw [wp_bind]
    have e : v1.len + 1 - 1 = l.length := by have := r1.1; omega
    have hw2 := f2.wf hw1 r1.lt
    refine wp_mono (wp_reheapUp (O := O) (T := T) hs _ _ h2 (l ++ [x]) hw2 r2 (by omega) (by simp [e])
      (by rw [e]; exact o.push x)) (fun o => o) ?_
    rintro _ h3 ⟨l', r3, f3, p3, o3⟩
    rw [wp_pure]
    refine ⟨⟨l', r3, p3.trans ?_, o3⟩, (f1.trans f2 hw r.lt).trans f3 hw r.lt, hcap⟩
    simpa using (List.perm_append_comm (l₁ := l) (l₂ := [x]))
  rw [wp_bind]
  by_cases hf : v.len = v.cap
  · rw [if_pos hf]
    refine wp_mono (wp_grow hw r (hO hf)) (fun o => o) ?_
    rintro v1 h1 ⟨r1, f1, c1, c2⟩
    exact rest v1 h1 r1 (f1.wf hw r.lt) f1 (by have := r1.1; have := r.1; omega) (by omega)
  · rw [if_neg hf, wp_pure]
    exact rest v h r hw (Frame.refl _ _) (by have := r.len_le; omega) (by omega)

theorem rootReplaced_eq {l : List α} (h : 1 < l.length) :
    rootReplaced l = (l.set 0 (l[l.length - 1]'(by omega))).take (l.length - 1) := by
  unfold rootReplaced
  have e : l.getLast? = some (l[l.length - 1]'(by omega)) := by
    rw [List.getLast?_eq_getElem?]; simp
  rw [e]
  simp [List.dropLast_eq_take]

theorem wp_pop {O : Prop} {T : Traits} {lt : α → α → Bool} (hs : SWO lt) {h : Heap α} {v : Vec}
    {l : List α} (hw : h.WF) (r : Vec.Rep T h v l) (o : HeapOrd lt l) (hl : 0 < l.length) :
    wp O (pop T lt v) h (fun v' h' => (∃ l', Vec.Rep T h' v' l' ∧ l.Perm (l[0] :: l') ∧
      HeapOrd lt l') ∧ Frame h v.data h' v'.data ∧ v'.cap = v.cap) := by
  have r0 := r
  obtain ⟨r1, r2⟩ := r
  cases hd : v.data with
  | none => simp only [hd] at r2; simp [r2.2] at hl
  | some id =>
    simp only [hd] at r2
    obtain ⟨hid, hc0, tail, hb, ht, htr⟩ := r2
    unfold pop
    rw [wp_bind]
    refine wp_require _ _ _ (by simp; omega) ?_
    -- the buffer once the first element is gone
    let b1 : Buf α := if T.triv then l.map some ++ tail else (l.map some ++ tail).set 0 none
    have hb1len : b1.length = l.length + tail.length := by
      simp only [b1]; split <;> simp
    have first : ∀ {Q : Unit → Heap α → Prop}, Q () (h.put id (some b1)) →
        wp O (if !T.triv then destroy T v.data 0 else pure () : M α Unit) h Q := by
      intro Q hq
      by_cases htv : T.triv = true
      · have := put_self h id
        rw [hb] at this
        simp only [b1, htv, if_true, this] at hq
        simpa [htv, wp_pure] using hq
      · simp only [b1, htv, Bool.false_eq_true, if_false] at hq
        simp only [htv, Bool.not_false, if_true, hd]
        refine wp_destroy (x := l[0]) (by simpa using htv) hb ?_ hq
        rw [List.getElem?_append_left (by simpa using hl)]; simp [hl]
    rw [wp_bind]
    refine first ?_
    simp only
    rw [wp_bind, hd]
    by_cases hone : l.length = 1
    · rw [if_neg (by omega), wp_pure, wp_pure]
      obtain ⟨x, rfl⟩ := List.length_eq_one_iff.mp hone
      refine ⟨⟨[], ?_, by simp, by intro i p hi; simp at hi⟩, Frame.put _ _ _, rfl⟩
      refine ⟨by simp [r1], ?_⟩
      simp only
      refine ⟨hid, hc0, b1, by simp, by simp [hb1len] at ht ⊢; omega, ?_⟩
      by_cases htv : T.triv = true
      · exact Or.inl htv
      · right
        rcases htr with htr | htr
        · exact absurd htr htv
        · intro c hc
          simp [b1, htv] at hc
          rcases hc with rfl | hc
          · rfl
          · exact htr c hc
    · rw [if_pos (by omega), wp_bind]
      have hlast : l.length - 1 < l.length := by omega
      have ev : v.len - 1 = l.length - 1 := by omega
      rw [ev]
      have g1 : b1[l.length - 1]? = some (some l[l.length - 1]) := by
        simp only [b1]
        split
        · rw [List.getElem?_append_left (by simp; omega)]; simp
        · rw [List.getElem?_set_ne (by omega), List.getElem?_append_left (by simp; omega)]
          simp
      refine wp_ok (moveOut_ok (put_blk_self _ _ _) g1) ?_
      rw [put_put, wp_bind]
      refine wp_construct (put_blk_self _ _ _) ?_ ?_ ?_
      · split <;> simp [hb1len] <;> omega
      · by_cases htv : T.triv = true
        · exact Or.inl htv
        · right
          simp only [b1, htv, Bool.false_eq_true, if_false]
          rw [List.getElem?_set_ne (by omega), List.getElem?_set_self (by simp; omega)]
      rw [put_put]
      generalize hB : (if T.triv = true then b1 else b1.set (l.length - 1) none).set 0
        (some l[l.length - 1]) = B
      -- shape of the buffer
      have shape : ∃ c, B = (rootReplaced l).map some ++ c :: tail ∧ (T.triv = true ∨ c = none) := by
        obtain ⟨x, t, rfl⟩ : ∃ x t, l = x :: t := by
          cases l with
          | nil => simp at hl
          | cons x t => exact ⟨x, t, rfl⟩
        obtain ⟨s, z, rfl⟩ : ∃ s z, t = s ++ [z] := by
          rcases List.eq_nil_or_concat t with rfl | ⟨s, z, rfl⟩
          · simp at hone
          · exact ⟨s, z, by simp⟩
        have e1 : rootReplaced (x :: (s ++ [z])) = z :: s := by
          unfold rootReplaced
          have e : (x :: (s ++ [z])).getLast? = some z := List.getLast?_concat (l := x :: s)
          rw [e]
          have e2 : (z :: (s ++ [z])).dropLast = z :: s := List.dropLast_concat (l₁ := z :: s)
          simpa using e2
        rw [e1]
        have e3 : (x :: (s ++ [z]))[(x :: (s ++ [z])).length - 1] = z := by simp
        by_cases htv : T.triv = true
        · refine ⟨some z, ?_, Or.inl htv⟩
          rw [← hB]
          simp [b1, htv]
        · refine ⟨none, ?_, Or.inr rfl⟩
          rw [← hB]
          simp [b1, htv, List.set_append]
      obtain ⟨c, eB, hcn⟩ := shape
      have rB : Vec.Rep T (h.put id (some B)) { v with len := l.length - 1 } (rootReplaced l) := by
        refine ⟨by simp, ?_⟩
        simp only [hd]
        refine ⟨hid, hc0, c :: tail, by simp [eB], by simp; omega, ?_⟩
        rcases htr with htr | htr
        · exact Or.inl htr
        · rcases hcn with hcn | hcn
          · exact Or.inl hcn
          · right; intro c' hc'; simp at hc'; rcases hc' with rfl | hc'
            · exact hcn
            · exact htr _ hc'
      have hw1 : (h.put id (some B)).WF := (Frame.put h id (some B)).wf hw (by
        intro j hj; simp at hj; omega)
      have := wp_reheapDown (O := O) (T := T) hs (l.length - 1 + 1) 0 _ _ hw1 rB
        (by simp) (by simp; omega) (rootReplaced_down o)
      rw [hd] at this
      refine wp_mono this (fun o => o) ?_
      rintro _ h3 ⟨l', r3, f3, p3, o3⟩
      rw [wp_pure]
      refine ⟨⟨l', r3, (rootReplaced_perm hl).trans (.cons _ p3.symm), o3⟩, ?_, rfl⟩
      refine (Frame.put h id (some B)).trans ?_ hw (by intro j hj; simp at hj; omega)
      simpa using f3

end PHeap
end Rpp
