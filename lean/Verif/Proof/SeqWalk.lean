import Verif.Model.SeqWalk
import Verif.Proof.VecWorld
import Verif.Proof.QWorld

/-! Lemmas about loops that change the sequence they loop over. -/

namespace Rpp

open Spec

variable {α : Type _}

theorem acted_len {popped : List α → List α} (hp : ∀ l, (popped l).length ≤ l.length) :
    ∀ {as : List (Act α)} {l l' : List α}, acted popped l as = some l' → l'.length ≤ l.length + pushes as
  | [], l, l', h => by simp only [acted, Option.some.injEq] at h; subst h; simp
  | .push y :: as, l, l', h => by
    have := acted_len hp (as := as) h
    simp only [List.length_append, List.length_singleton] at this
    simp only [pushes]; omega
  | .clear :: as, l, l', h => by
    have := acted_len hp (as := as) h
    simp only [List.length_nil] at this
    simp only [pushes]; omega
  | .pop :: as, l, l', h => by
    simp only [acted] at h
    split at h
    · cases h
    · have := acted_len hp (as := as) h
      have := hp l
      simp only [pushes]; omega

theorem pushes_append (as bs : List (Act α)) : pushes (as ++ bs) = pushes as + pushes bs := by
  induction as with
  | nil => simp [pushes]
  | cons a as ih => cases a <;> simp only [List.cons_append, pushes, ih] <;> omega

theorem pushes_map (ys : List α) : pushes (ys.map Act.push) = ys.length := by
  induction ys with
  | nil => rfl
  | cons y ys ih => simp [pushes, ih]

theorem acted_push {popped : List α → List α} (ys : List α) : ∀ l, acted popped l (ys.map Act.push) = some (l ++ ys) := by
  induction ys with
  | nil => intro l; simp [acted]
  | cons y ys ih => intro l; simp [acted, ih]

theorem seen_push {popped : List α → List α} (ys : α → List α) :
    ∀ (rem pre app : List α), seen popped (fun x => (ys x).map Act.push) pre.length rem.length (pre ++ rem ++ app) =
      some (rem, pre ++ rem ++ app ++ rem.flatMap ys) := by
  intro rem
  induction rem with
  | nil => intro pre app; simp [seen]
  | cons x rem ih =>
    intro pre app
    have e : (pre ++ x :: rem ++ app)[pre.length]? = some x := by simp
    simp only [List.length_cons, seen, e, acted_push]
    have := ih (pre ++ [x]) (app ++ ys x)
    simp only [List.length_append, List.length_singleton, List.append_assoc, List.cons_append, List.nil_append] at this
    simp [this]

theorem bind_ok {β γ : Type _} {m : M α β} {f : β → M α γ} {h h' : Heap α} {b : β} (e : m h = .ok (b, h')) : (m >>= f) h = f b h' := by
  simp [bind, StateT.bind, Except.bind, e]

namespace Vec

theorem push_keep {T : Traits} {v v' : Vec} {x : α} {h h' : Heap α} (hne : v.len ≠ v.cap)
    (e : push T v x h = .ok (v', h')) : v'.data = v.data ∧ v'.cap = v.cap := by
  unfold push at e
  rw [if_neg hne] at e
  simp only [bind, StateT.bind, Except.bind, pure, StateT.pure, Except.pure] at e
  split at e
  · cases e
  · split at e
    · cases e
    · cases e; exact ⟨rfl, rfl⟩

theorem reserve_new {T : Traits} {v v' : Vec} {n : Nat} {h h' : Heap α} (hn : v.cap < n)
    (e : reserve T v n h = .ok (v', h')) : v'.data = some h.next := by
  unfold reserve at e
  rw [if_neg (by omega)] at e
  simp only [bind, StateT.bind, Except.bind] at e
  split at e
  · cases e
  · rename_i p hp
    have hd : p.1 = some h.next := by
      unfold alloc at hp
      rw [if_neg (by omega)] at hp
      split at hp
      · cases hp
      · cases hp; rfl
    split at e
    · cases e
    · split at e
      · cases e
      · cases e; exact hd

theorem push_grow {T : Traits} {v v' : Vec} {x : α} {h h' : Heap α} (he : v.len = v.cap)
    (e : push T v x h = .ok (v', h')) : v'.data = some h.next := by
  unfold push at e
  rw [if_pos he] at e
  simp only [bind, StateT.bind, Except.bind] at e
  split at e
  · cases e
  · rename_i p hp
    have hd := reserve_new (by split <;> omega) hp
    split at e
    · cases e
    · split at e
      · cases e
      · cases e; exact hd

theorem pop_keep {T : Traits} {v v' : Vec} {h h' : Heap α}
    (e : pop T v h = .ok (v', h')) : v'.data = v.data ∧ v'.cap = v.cap := by
  unfold pop at e
  simp only [bind, StateT.bind, Except.bind] at e
  split at e
  · cases e
  · split at e
    · cases e
    · cases e; exact ⟨rfl, rfl⟩

theorem clear_keep {T : Traits} {v v' : Vec} {h h' : Heap α}
    (e : clear T v h = .ok (v', h')) : v'.data = v.data ∧ v'.cap = v.cap := by
  unfold clear at e
  simp only [bind, StateT.bind, Except.bind] at e
  split at e
  · cases e
  · cases e; exact ⟨rfl, rfl⟩

/-- Actions for which there is room. -/
theorem perform_room {T : Traits} : ∀ (as : List (Act α)) {h : Heap α} {v : Vec} {l l' : List α}, h.WF → Rep T h v l →
    acted List.dropLast l as = some l' → l.length + pushes as ≤ v.cap →
    ∃ v' h', perform T v as h = .ok (v', h') ∧ Rep T h' v' l' ∧ h'.WF ∧ v'.data = v.data ∧ v'.cap = v.cap
  | [], h, v, l, l', hw, r, ha, hr => by
    simp only [acted, Option.some.injEq] at ha
    subst ha
    exact ⟨v, h, rfl, r, hw, rfl, rfl⟩
  | .push y :: as, h, v, l, l', hw, r, ha, hr => by
    simp only [pushes] at hr
    have hl := r.1
    obtain ⟨v1, h1, e1, r1, f1, _⟩ := wp_elim (wp_push (O := False) (x := y) hw r (by omega)) id
    obtain ⟨k1, k2⟩ := push_keep (by omega) e1
    obtain ⟨v2, h2, e2, r2, w2, d2, c2⟩ := perform_room as (f1.wf hw r.lt) r1 ha
      (by simp only [List.length_append, List.length_singleton]; omega)
    exact ⟨v2, h2, by simp only [perform]; rw [bind_ok e1, e2], r2, w2, d2.trans k1, c2.trans k2⟩
  | .pop :: as, h, v, l, l', hw, r, ha, hr => by
    simp only [pushes] at hr
    simp only [acted, List.isEmpty_iff] at ha
    split at ha
    · cases ha
    · rename_i hl
      obtain ⟨v1, h1, e1, r1, f1, _⟩ := wp_elim (wp_pop (O := False) r hl) id
      obtain ⟨k1, k2⟩ := pop_keep e1
      obtain ⟨v2, h2, e2, r2, w2, d2, c2⟩ := perform_room as (f1.wf hw r.lt) r1 ha
        (by simp only [List.length_dropLast]; omega)
      exact ⟨v2, h2, by simp only [perform]; rw [bind_ok e1, e2], r2, w2, d2.trans k1, c2.trans k2⟩
  | .clear :: as, h, v, l, l', hw, r, ha, hr => by
    simp only [pushes] at hr
    simp only [acted] at ha
    obtain ⟨v1, h1, e1, r1, f1, _⟩ := wp_elim (wp_clear (O := False) r) id
    obtain ⟨k1, k2⟩ := clear_keep e1
    obtain ⟨v2, h2, e2, r2, w2, d2, c2⟩ := perform_room as (f1.wf hw r.lt) r1 ha
      (by simp only [List.length_nil]; omega)
    exact ⟨v2, h2, by simp only [perform]; rw [bind_ok e1, e2], r2, w2, d2.trans k1, c2.trans k2⟩

theorem walkLoop_room {T : Traits} {body : α → List (Act α)} {p : Option Nat} : ∀ (n i : Nat) {h : Heap α} {v : Vec}
    {l l' vis : List α}, h.WF → Rep T h v l → v.data = p → seen List.dropLast body i n l = some (vis, l') →
    l.length + pushes (vis.flatMap body) ≤ v.cap →
    ∃ v' h', walkLoop T body p i n v h = .ok ((vis, v'), h') ∧ Rep T h' v' l'
  | 0, i, h, v, l, l', vis, hw, r, hd, hs, hr => by
    simp only [seen, Option.some.injEq, Prod.mk.injEq] at hs
    obtain ⟨rfl, rfl⟩ := hs
    exact ⟨v, h, rfl, r⟩
  | n + 1, i, h, v, l, l', vis, hw, r, hd, hs, hr => by
    simp only [seen] at hs
    split at hs
    · cases hs
    · rename_i x hx
      split at hs
      · cases hs
      · rename_i l1 ha
        obtain ⟨⟨vis1, l2⟩, hs1, e⟩ := Option.map_eq_some_iff.1 hs
        cases e
        obtain ⟨hi, rfl⟩ := List.getElem?_eq_some_iff.1 hx
        simp only [List.flatMap_cons, pushes_append] at hr
        obtain ⟨y, h0, e0, rfl, rfl⟩ := wp_elim (wp_read (O := False) r hi (Q := fun a b => a = l[i] ∧ b = h) ⟨rfl, rfl⟩) id
        obtain ⟨v1, h1, e1, r1, w1, d1, c1⟩ := perform_room (body l[i]) hw r ha (by omega)
        have hlen := acted_len (fun l => by simp) ha
        obtain ⟨v2, h2, e2, r2⟩ := walkLoop_room n (i + 1) w1 r1 (d1.trans hd) hs1 (by omega)
        refine ⟨v2, h2, ?_, r2⟩
        simp only [walkLoop]
        rw [← hd, bind_ok e0, bind_ok e1, ← hd] at *
        rw [bind_ok e2]
        rfl

/-- Additions, with or without room: without, the old block is given back. -/
theorem perform_push {T : Traits} : ∀ (ys : List α) {h : Heap α} {v : Vec} {l : List α}, h.WF → Rep T h v l →
    2 * (l.length + ys.length) + 8 ≤ h.lim →
    ∃ v' h', perform T v (ys.map Act.push) h = .ok (v', h') ∧ Rep T h' v' (l ++ ys) ∧ Frame h v.data h' v'.data ∧
      (l.length + ys.length ≤ v.cap → v'.data = v.data ∧ v'.cap = v.cap) ∧
      (v.cap < l.length + ys.length → ys ≠ [] → ∀ j, v.data = some j → h'.blk j = none)
  | [], h, v, l, hw, r, hr => ⟨v, h, rfl, by simpa using r, Frame.refl _ _, fun _ => ⟨rfl, rfl⟩, fun _ h => absurd rfl h⟩
  | y :: ys, h, v, l, hw, r, hr => by
    have hl := r.1
    simp only [List.length_cons] at hr
    obtain ⟨v1, h1, e1, r1, f1, c1⟩ := wp_elim (wp_push (O := False) (x := y) hw r (by omega)) id
    have w1 := f1.wf hw r.lt
    obtain ⟨v2, h2, e2, r2, f2, a2, b2⟩ := perform_push ys w1 r1
      (by rw [f1.lim_eq]; simp only [List.length_append, List.length_singleton]; omega)
    simp only [List.length_append, List.length_singleton] at a2 b2
    refine ⟨v2, h2, by simp only [perform, List.map_cons]; rw [bind_ok e1, e2], by simpa using r2, f1.trans f2 hw r.lt, ?_, ?_⟩
    · intro hc
      simp only [List.length_cons] at hc
      obtain ⟨k1, k2⟩ := push_keep (by omega) e1
      obtain ⟨k3, k4⟩ := a2 (by omega)
      exact ⟨k3.trans k1, k4.trans k2⟩
    · intro hc _ j hj
      simp only [List.length_cons] at hc
      have hj1 := r.lt j hj
      by_cases he : v.len = v.cap
      · have hn := push_grow he e1
        have hne : v1.data ≠ some j := by rw [hn]; intro e; cases e; omega
        have hz : h1.blk j = none := by
          rcases f1.own with e | ⟨_, e⟩
          · exact absurd (e.trans hj) hne
          · exact e j hj
        have hne2 : v2.data ≠ some j := by
          rcases f2.own with e | ⟨e, _⟩
          · rw [e]; exact hne
          · intro e'
            have := (e j e').1
            have := f1.next_le
            omega
        rw [f2.other j hne hne2, hz]
      · obtain ⟨k1, k2⟩ := push_keep he e1
        have hlen : v.len ≤ v.cap := by
          have := r1.len_le
          have := r1.1
          simp only [List.length_append, List.length_singleton] at this
          omega
        refine b2 (by omega) ?_ j (k1.trans hj)
        intro e
        subst e
        simp only [List.length_nil] at hc
        omega

theorem flatMap_dropLast_cons (ys : α → List α) (x y : α) (l : List α) :
    ((x :: y :: l).dropLast.flatMap ys).length = (ys x).length + ((y :: l).dropLast.flatMap ys).length := by
  simp

/-- A loop that adds: it is fine exactly if what is added before the last turn finds room. -/
theorem walkLoop_push {T : Traits} (ys : α → List α) {j : Nat} : ∀ (rem pre app : List α) {h : Heap α} {v : Vec},
    h.WF → Rep T h v (pre ++ rem ++ app) → (rem ≠ [] → v.data = some j) →
    2 * ((pre ++ rem ++ app).length + (rem.flatMap ys).length) + 8 ≤ h.lim →
    ((pre ++ rem ++ app).length + (rem.dropLast.flatMap ys).length ≤ v.cap →
      ∃ v' h', walkLoop T (fun x => (ys x).map Act.push) (some j) pre.length rem.length v h = .ok ((rem, v'), h') ∧
        Rep T h' v' (pre ++ rem ++ app ++ rem.flatMap ys)) ∧
    (v.cap < (pre ++ rem ++ app).length + (rem.dropLast.flatMap ys).length →
      walkLoop T (fun x => (ys x).map Act.push) (some j) pre.length rem.length v h = .error .ub) := by
  intro rem
  induction rem with
  | nil =>
    intro pre app h v hw r _ _
    have := r.len_le
    have := r.1
    exact ⟨fun _ => ⟨v, h, rfl, by simpa using r⟩, fun hc => by simp at hc; simp at this; omega⟩
  | cons x rem ih =>
    intro pre app h v hw r hd hm
    have hi : pre.length < (pre ++ x :: rem ++ app).length := by simp
    have hx : (pre ++ x :: rem ++ app)[pre.length] = x := by simp
    replace hd := hd (by simp)
    obtain ⟨y, h0, e0, ey, eh⟩ := wp_elim (wp_read (O := False) r hi
      (Q := fun a b => a = (pre ++ x :: rem ++ app)[pre.length] ∧ b = h) ⟨rfl, rfl⟩) id
    rw [hx] at ey
    subst ey eh
    rw [hd] at e0
    have hlv := r.len_le
    have hl1 := r.1
    simp only [List.flatMap_cons, List.length_append] at hm
    obtain ⟨v1, h1, e1, r1, f1, a1, b1⟩ := perform_push (ys y) hw r (by simp only [List.length_append]; omega)
    have w1 := f1.wf hw r.lt
    have el : pre ++ y :: rem ++ app ++ ys y = (pre ++ [y]) ++ rem ++ (app ++ ys y) := by simp
    have hstep : ∀ n, walkLoop T (fun x => (ys x).map Act.push) (some j) pre.length (n + 1) v h0 =
        (walkLoop T (fun x => (ys x).map Act.push) (some j) (pre.length + 1) n v1 >>= fun r => pure (y :: r.1, r.2)) h1 := by
      intro n
      simp only [walkLoop]
      rw [bind_ok e0, bind_ok e1]
    have e3 : pre.length + 1 = (pre ++ [y]).length := by simp
    rw [List.length_cons, hstep, e3]
    cases rem with
    | nil =>
      have el' : pre ++ [y] ++ app ++ ys y = pre ++ [y] ++ app ++ [y].flatMap ys := by simp
      refine ⟨fun _ => ⟨v1, h1, rfl, by rw [← el']; exact r1⟩, fun hc => ?_⟩
      simp only [List.dropLast_singleton, List.flatMap_nil, List.length_nil] at hc
      omega
    | cons z rem =>
      rw [flatMap_dropLast_cons]
      by_cases hc : (pre ++ y :: z :: rem ++ app).length + (ys y).length ≤ v.cap
      · obtain ⟨k1, k2⟩ := a1 hc
        rw [el] at r1
        obtain ⟨g1, g2⟩ := ih (pre ++ [y]) (app ++ ys y) w1 r1 (fun _ => k1.trans hd)
          (by rw [f1.lim_eq]; simp only [List.length_append, List.length_cons, List.length_nil] at hm ⊢; omega)
        refine ⟨fun h3 => ?_, fun h3 => ?_⟩
        · obtain ⟨v2, h2, e2, r2⟩ := g1 (by
            rw [k2]; simp only [List.length_append, List.length_cons, List.length_nil] at h3 ⊢; omega)
          refine ⟨v2, h2, by rw [bind_ok e2]; rfl, ?_⟩
          have : pre ++ y :: z :: rem ++ app ++ (y :: z :: rem).flatMap ys =
              pre ++ [y] ++ z :: rem ++ (app ++ ys y) ++ (z :: rem).flatMap ys := by simp
          rw [this]; exact r2
        · have := g2 (by
            rw [k2]; simp only [List.length_append, List.length_cons, List.length_nil] at h3 ⊢; omega)
          simp only [bind, StateT.bind, Except.bind, this]
      · refine ⟨fun h3 => by omega, fun _ => ?_⟩
        have hz := b1 (by omega) (by intro e; rw [e] at hc; simp only [List.length_nil] at hc; omega) j hd
        simp [walkLoop, bind, StateT.bind, Except.bind, readAt, hz]

end Vec

namespace Queue

theorem perform_ok {T : Traits} : ∀ (as : List (Act α)) {h : Heap α} {q : Queue} {l l' : List α}, h.WF → h.lim ≤ 2 ^ 63 →
    Rep T h q l → acted List.tail l as = some l' → 2 * (l.length + pushes as) + 8 ≤ h.lim →
    ∃ q' h', perform T q as h = .ok (q', h') ∧ Rep T h' q' l' ∧ h'.WF ∧ h'.lim = h.lim
  | [], h, v, l, l', hw, hM, r, ha, hr => by
    simp only [acted, Option.some.injEq] at ha
    subst ha
    exact ⟨v, h, rfl, r, hw, rfl⟩
  | .push y :: as, h, v, l, l', hw, hM, r, ha, hr => by
    simp only [pushes] at hr
    have hl := r.1
    obtain ⟨v1, h1, e1, r1, f1, _⟩ := wp_elim (wp_push (O := False) (x := y) hw hM r (by omega)) id
    obtain ⟨v2, h2, e2, r2, w2, m2⟩ := perform_ok as (f1.wf hw r.lt) (by rw [f1.lim_eq]; exact hM) r1 ha
      (by rw [f1.lim_eq]; simp only [List.length_append, List.length_singleton]; omega)
    exact ⟨v2, h2, by simp only [perform]; rw [bind_ok e1, e2], r2, w2, m2.trans f1.lim_eq⟩
  | .pop :: as, h, v, l, l', hw, hM, r, ha, hr => by
    simp only [pushes] at hr
    simp only [acted, List.isEmpty_iff] at ha
    split at ha
    · cases ha
    · rename_i hl
      obtain ⟨v1, h1, e1, r1, f1, _⟩ := wp_elim (wp_pop (O := False) r hl) id
      obtain ⟨v2, h2, e2, r2, w2, m2⟩ := perform_ok as (f1.wf hw r.lt) (by rw [f1.lim_eq]; exact hM) r1 ha
        (by rw [f1.lim_eq]; simp only [List.length_tail]; omega)
      exact ⟨v2, h2, by simp only [perform]; rw [bind_ok e1, e2], r2, w2, m2.trans f1.lim_eq⟩
  | .clear :: as, h, v, l, l', hw, hM, r, ha, hr => by
    simp only [pushes] at hr
    simp only [acted] at ha
    obtain ⟨v1, h1, e1, r1, f1, _⟩ := wp_elim (wp_clear (O := False) r) id
    obtain ⟨v2, h2, e2, r2, w2, m2⟩ := perform_ok as (f1.wf hw r.lt) (by rw [f1.lim_eq]; exact hM) r1 ha
      (by rw [f1.lim_eq]; simp only [List.length_nil]; omega)
    exact ⟨v2, h2, by simp only [perform]; rw [bind_ok e1, e2], r2, w2, m2.trans f1.lim_eq⟩

theorem walkLoop_ok {T : Traits} {body : α → List (Act α)} : ∀ (n i : Nat) {h : Heap α} {q : Queue}
    {l l' vis : List α}, h.WF → h.lim ≤ 2 ^ 63 → Rep T h q l → seen List.tail body i n l = some (vis, l') →
    2 * (l.length + pushes (vis.flatMap body)) + 8 ≤ h.lim →
    ∃ q' h', walkLoop T body i n q h = .ok ((vis, q'), h') ∧ Rep T h' q' l'
  | 0, i, h, v, l, l', vis, hw, hM, r, hs, hr => by
    simp only [seen, Option.some.injEq, Prod.mk.injEq] at hs
    obtain ⟨rfl, rfl⟩ := hs
    exact ⟨v, h, rfl, r⟩
  | n + 1, i, h, v, l, l', vis, hw, hM, r, hs, hr => by
    simp only [seen] at hs
    split at hs
    · cases hs
    · rename_i x hx
      split at hs
      · cases hs
      · rename_i l1 ha
        obtain ⟨⟨vis1, l2⟩, hs1, e⟩ := Option.map_eq_some_iff.1 hs
        cases e
        obtain ⟨hi, rfl⟩ := List.getElem?_eq_some_iff.1 hx
        simp only [List.flatMap_cons, pushes_append] at hr
        obtain ⟨y, h0, e0, rfl, rfl⟩ := wp_elim (wp_read (O := False) r hi (Q := fun a b => a = l[i] ∧ b = h) ⟨rfl, rfl⟩) id
        rw [← idxAt_eq (r.ok hi) (by rw [r.1]; exact hi)] at e0
        obtain ⟨v1, h1, e1, r1, w1, m1⟩ := perform_ok (body l[i]) hw hM r ha (by omega)
        have hlen := acted_len (fun l => by simp) ha
        obtain ⟨v2, h2, e2, r2⟩ := walkLoop_ok n (i + 1) w1 (by rw [m1]; exact hM) r1 hs1 (by rw [m1]; omega)
        refine ⟨v2, h2, ?_, r2⟩
        simp only [walkLoop]
        rw [bind_ok e0, bind_ok e1, bind_ok e2]
        rfl

end Queue
end Rpp
