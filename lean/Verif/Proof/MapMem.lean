import Verif.Model.MapMem
import Verif.Proof.MapOps
import Verif.Props.Math

/-!
# Lemmas about the map in storage
-/

namespace Rpp.MapMem
open Classical in
/-- Number of occurrences of `x`. -/
noncomputable def cnt {α : Type} (x : α) (l : List α) : Nat := l.countP (fun y => decide (y = x))

section
variable {α : Type} (x : α)

theorem cnt_nil : cnt x [] = 0 := rfl
theorem cnt_cons (y : α) (l : List α) : cnt x (y :: l) = cnt x [y] + cnt x l := by
  classical
  unfold cnt
  rw [List.countP_cons, List.countP_cons]
  simp only [List.countP_nil]
  omega
theorem cnt_append (a b : List α) : cnt x (a ++ b) = cnt x a + cnt x b := by
  unfold cnt; exact List.countP_append
theorem perm_of_cnt {a b : List α} (h : ∀ x, cnt x a = cnt x b) : a.Perm b := by
  classical
  rw [List.perm_iff_count]
  intro y
  have := h y
  unfold cnt at this
  unfold List.count
  have e : (fun z => z == y) = (fun z => decide (z = y)) := by
    funext z; rw [beq_eq_decide]
  rw [e]
  convert this using 2
end

variable {K V : Type} [DecidableEq K]

/-- Occurrences of `x` in the storage of a slot. -/
noncomputable def cntC (x : K × V) (c : Cell K V) : Nat := cnt x c.data.toList
/-- Occurrences of `x` in a table. -/
noncomputable def cntT (x : K × V) (t : List (Cell K V)) : Nat := (t.map (cntC x)).sum

theorem cntT_nil (x : K × V) : cntT x ([] : List (Cell K V)) = 0 := rfl
theorem cntT_cons (x : K × V) (c : Cell K V) (t : List (Cell K V)) : cntT x (c :: t) = cntC x c + cntT x t := by
  simp [cntT]
theorem cntC_none (x : K × V) (h : Nat) : cntC x (⟨h, none⟩ : Cell K V) = 0 := rfl
theorem cntC_some (x : K × V) (h : Nat) (p : K × V) : cntC x (⟨h, some p⟩ : Cell K V) = cnt x [p] := rfl

theorem cntT_set (x : K × V) : ∀ (t : List (Cell K V)) (i : Nat) (c o : Cell K V), t[i]? = some o →
    cntT x (t.set i c) + cntC x o = cntT x t + cntC x c := by
  intro t
  induction t with
  | nil => intro i c o h; simp at h
  | cons a t ih =>
    intro i c o h
    cases i with
    | zero =>
      simp at h; subst h
      simp only [List.set_cons_zero, cntT_cons]; omega
    | succ i =>
      simp at h
      have := ih i c o h
      simp only [List.set_cons_succ, cntT_cons]; omega

theorem cntT_replicate (x : K × V) (n h : Nat) : cntT x (List.replicate n (⟨h, none⟩ : Cell K V)) = 0 := by
  induction n with
  | zero => rfl
  | succ n ih => rw [List.replicate_succ, cntT_cons, ih]; rfl

theorem cntT_eq (x : K × V) (t : List (Cell K V)) : cntT x t = cnt x (t.filterMap Cell.data) := by
  induction t with
  | nil => rfl
  | cons c t ih =>
    rw [cntT_cons, List.filterMap_cons, ih]
    unfold cntC
    cases c.data with
    | none => simp [cnt_nil]
    | some p => simp only [Option.toList_some]; exact (cnt_cons x p _).symm

/-- Outcomes that are no memory error. -/
def Fine (e : Err) : Prop := e = .die ∨ e = .oom ∨ e = .hang

/-- After running `m` from `l`: either it stops without a memory error, or `Q` holds. -/
def Ok {α : Type} (m : S K V α) (l : Ledger K V) (Q : α → Ledger K V → Prop) : Prop :=
  match m l with
  | .ok (a, l') => Q a l'
  | .error e => Fine e

/-- The same for code without effect on pairs. -/
def OkR {α : Type} (r : Res α) (Q : α → Prop) : Prop :=
  match r with
  | .ok a => Q a
  | .error e => Fine e

section
variable {α β : Type}

theorem Ok.bind {m : S K V α} {f : α → S K V β} {l : Ledger K V} {P : α → Ledger K V → Prop}
    {Q : β → Ledger K V → Prop} (h : Ok m l P) (hf : ∀ a l', P a l' → Ok (f a) l' Q) : Ok (m >>= f) l Q := by
  unfold Ok at *
  show match StateT.bind m f l with | .ok (a, l') => Q a l' | .error e => Fine e
  unfold StateT.bind
  cases e : m l with
  | error e' => rw [e] at h; exact h
  | ok q => rw [e] at h; exact hf q.1 q.2 h

theorem Ok.ret {a : α} {l : Ledger K V} {Q : α → Ledger K V → Prop} (h : Q a l) :
    Ok (pure a : S K V α) l Q := h

theorem Ok.mono {m : S K V α} {l : Ledger K V} {P Q : α → Ledger K V → Prop} (h : Ok m l P)
    (hf : ∀ a l', P a l' → Q a l') : Ok m l Q := by
  unfold Ok at *
  split at h
  · exact hf _ _ h
  · exact h

theorem Ok.fail {e : Err} {l : Ledger K V} {Q : α → Ledger K V → Prop} (h : Fine e) :
    Ok (fail e : S K V α) l Q := h

theorem Ok.res {r : Res α} {l : Ledger K V} {Q : α → Ledger K V → Prop} (h : OkR r (fun a => Q a l)) :
    Ok (pureRes r : S K V α) l Q := by
  unfold Ok pureRes
  unfold OkR at h
  cases r with
  | error e => exact h
  | ok a => exact h

theorem OkR.bind {r : Res α} {f : α → Res β} {P : α → Prop} {Q : β → Prop} (h : OkR r P)
    (hf : ∀ a, P a → OkR (f a) Q) : OkR (r >>= f) Q := by
  cases r with
  | error e => exact h
  | ok a => exact hf a h

theorem OkR.ret {a : α} {Q : α → Prop} (h : Q a) : OkR (pure a : Res α) Q := h
end

/-! ### Slots -/

/-- A slot is empty over raw storage, or has the hash of the key of its pair. -/
def WfC (H : K → Nat) (c : Cell K V) : Prop :=
  c = ⟨0, none⟩ ∨ ∃ k v, c = ⟨H k, some (k, v)⟩

def WfT (H : K → Nat) (t : List (Cell K V)) : Prop := ∀ c ∈ t, WfC H c

/-- What is needed of the hash function (C06). -/
structure HashNZ (H : K → Nat) : Prop where
  nz : ∀ k, H k ≠ 0
  lt : ∀ k, H k < 2 ^ 64

variable {H : K → Nat}

theorem WfT.get {t : List (Cell K V)} (h : WfT H t) {i : Nat} {c : Cell K V} (e : t[i]? = some c) : WfC H c :=
  h c (List.mem_of_getElem? e)

theorem WfT.set {t : List (Cell K V)} (h : WfT H t) {i : Nat} {c : Cell K V} (hc : WfC H c) : WfT H (t.set i c) := by
  intro d hd
  rcases List.mem_or_eq_of_mem_set hd with hd | hd
  · exact h d hd
  · rw [hd]; exact hc

theorem WfC.live (hH : HashNZ H) {c : Cell K V} (h : WfC H c) (h0 : c.hash ≠ 0) :
    ∃ k v, c = ⟨H k, some (k, v)⟩ := by
  rcases h with h | h
  · rw [h] at h0; exact absurd rfl h0
  · exact h

theorem WfC.dead (hH : HashNZ H) {c : Cell K V} (h : WfC H c) (h0 : c.hash = 0) : c = ⟨0, none⟩ := by
  rcases h with h | ⟨k, v, h⟩
  · exact h
  · rw [h] at h0; exact absurd h0 (hH.nz k)

/-- Destroying a slot: the pair, if any, is dead. -/
theorem dtor_ok (hH : HashNZ H) {c : Cell K V} (h : WfC H c) (l : Ledger K V) :
    ∃ l', dtor c l = .ok (⟨0, none⟩, l') ∧ l'.made = l.made ∧
      ∀ x, cnt x l'.dead = cnt x l.dead + cntC x c := by
  rcases h with h | ⟨k, v, h⟩
  · subst h; exact ⟨l, rfl, rfl, fun x => rfl⟩
  · subst h
    refine ⟨{ l with dead := (k, v) :: l.dead }, ?_, rfl, fun x => ?_⟩
    · unfold dtor; rw [if_pos (hH.nz k)]
    · rw [cnt_cons, cntC_some]; omega

theorem moveCtor_ok (hH : HashNZ H) {c : Cell K V} (h : WfC H c) (l : Ledger K V) :
    moveCtor none c l = .ok ((c, ⟨0, none⟩), l) := by
  rcases h with h | ⟨k, v, h⟩
  · subst h; rfl
  · subst h; unfold moveCtor; rw [if_pos (hH.nz k)]

theorem assign_ok (hH : HashNZ H) {c s : Cell K V} (hc : WfC H c) (hs : WfC H s) (l : Ledger K V) :
    ∃ l', assign c s l = .ok ((s, ⟨0, none⟩), l') ∧ l'.made = l.made ∧
      ∀ x, cnt x l'.dead = cnt x l.dead + cntC x c := by
  obtain ⟨l', e, h1, h2⟩ := dtor_ok hH hc l
  refine ⟨l', ?_, h1, h2⟩
  unfold assign
  simp only [bind, StateT.bind, e, Except.bind]
  exact moveCtor_ok hH hs l'

theorem WfC.empty : WfC H (⟨0, none⟩ : Cell K V) := .inl rfl

theorem swap_ok (hH : HashNZ H) {a b : Cell K V} (ha : WfC H a) (hb : WfC H b) (l : Ledger K V) :
    swap a b l = .ok ((b, a), l) := by
  have e1 : assign (⟨0, none⟩ : Cell K V) b l = .ok ((b, ⟨0, none⟩), l) := by
    unfold assign
    simp only [bind, StateT.bind, dtor, ne_eq, not_true_eq_false, if_false, Except.bind]
    exact moveCtor_ok hH hb l
  have e2 : assign (⟨0, none⟩ : Cell K V) a l = .ok ((a, ⟨0, none⟩), l) := by
    unfold assign
    simp only [bind, StateT.bind, dtor, ne_eq, not_true_eq_false, if_false, Except.bind]
    exact moveCtor_ok hH ha l
  unfold swap
  simp only [bind, StateT.bind, moveCtor_ok hH ha, Except.bind, e1, e2]
  rfl

/-! ### Hoare rules for the slots -/

theorem Ok.of_run {α : Type} {m : S K V α} {l l' : Ledger K V} {a : α} {Q : α → Ledger K V → Prop}
    (e : m l = .ok (a, l')) (h : Q a l') : Ok m l Q := by
  unfold Ok; rw [e]; exact h

theorem same_ok (hH : HashNZ H) {c : Cell K V} (hc : WfC H c) {n : Nat} (hn : n ≠ 0) {r : Res K}
    (hr : ∃ k, r = .ok k) : OkR (same c n r) (fun b => b = true → c.hash ≠ 0) := by
  unfold same
  obtain ⟨k, rfl⟩ := hr
  by_cases h : c.hash = n
  · rw [if_pos h]
    obtain ⟨k', v', e⟩ := hc.live hH (by rw [h]; exact hn)
    subst e
    exact fun _ => by rw [h]; exact hn
  · rw [if_neg h]; exact fun hb => by cases hb

theorem shr_ok' {n shift : Nat} (h : shift < 64) (Q : Nat → Prop) (hq : Q (n / 2 ^ shift)) : OkR (Map.shr n shift) Q := by
  unfold Map.shr; rw [if_pos h]; exact hq

/-- The slot at `i` is in use. -/
def Live (t : List (Cell K V)) (i : Nat) : Prop := ∃ c, t[i]? = some c ∧ c.hash ≠ 0

theorem Live.set {t : List (Cell K V)} {i j : Nat} {c : Cell K V} (h : Live t i) (hc : c.hash ≠ 0) :
    Live (t.set j c) i := by
  obtain ⟨d, h1, h2⟩ := h
  by_cases e : j = i
  · subst e
    refine ⟨c, ?_, hc⟩
    rw [List.getElem?_set_self]
    exact (List.getElem?_eq_some_iff.mp h1).1
  · exact ⟨d, by rw [List.getElem?_set_ne e]; exact h1, h2⟩

theorem Live.here {t : List (Cell K V)} {i : Nat} {c : Cell K V} (hi : i < t.length) (hc : c.hash ≠ 0) :
    Live (t.set i c) i := ⟨c, by rw [List.getElem?_set_self hi], hc⟩

theorem insertLoop_ok (hH : HashNZ H) {cap shift : Nat} (hs : shift < 64) :
    ∀ (fuel : Nat) (tab : List (Cell K V)) (slot : Cell K V) (idx dist : Nat) (pl : Option Nat)
      (l : Ledger K V), tab.length = cap → WfT H tab → WfC H slot → slot.hash ≠ 0 → idx < cap →
      (∀ p, pl = some p → Live tab p) →
      Ok (insertLoop cap shift fuel tab slot idx dist pl) l (fun r l' =>
        r.1.length = cap ∧ WfT H r.1 ∧ r.2.1 = ⟨0, none⟩ ∧ Live r.1 r.2.2 ∧ l'.made = l.made ∧
        ∀ x, cntT x r.1 + cnt x l'.dead = cntT x tab + cntC x slot + cnt x l.dead) := by
  intro fuel
  induction fuel with
  | zero => intros; exact .inr (.inr rfl)
  | succ fuel ih =>
    intro tab slot idx dist pl l hl hw hc h0 hi hp
    unfold insertLoop
    obtain ⟨c, e⟩ : ∃ c, tab[idx]? = some c := ⟨tab[idx], by rw [List.getElem?_eq_getElem]⟩
    rw [e]
    dsimp only
    have hwc := hw.get e
    have fin : ∀ j, Live (tab.set idx slot) j → Ok (do
        let (c, slot) ← assign c slot
        return (tab.set idx c, slot, j)) l (fun r l' =>
        r.1.length = cap ∧ WfT H r.1 ∧ r.2.1 = ⟨0, none⟩ ∧ Live r.1 r.2.2 ∧ l'.made = l.made ∧
        ∀ x, cntT x r.1 + cnt x l'.dead = cntT x tab + cntC x slot + cnt x l.dead) := by
      intro j hj
      obtain ⟨l', a1, a2, a3⟩ := assign_ok hH hwc hc l
      refine Ok.bind (P := fun r l'' => r = (slot, ⟨0, none⟩) ∧ l'' = l') (Ok.of_run a1 ⟨rfl, rfl⟩) ?_
      rintro _ _ ⟨rfl, rfl⟩
      refine Ok.ret ⟨by simp [hl], hw.set hc, rfl, hj, a2, fun x => ?_⟩
      have := cntT_set x tab idx slot c e
      have := a3 x
      dsimp only
      omega
    by_cases hz : c.hash = 0
    · rw [if_pos hz]
      refine fin _ ?_
      cases pl with
      | none => exact Live.here (by omega) h0
      | some p => exact (hp p rfl).set h0
    · rw [if_neg hz]
      refine Ok.bind (P := fun _ l' => l = l') (Ok.res ?_) ?_
      · have hk : ∃ k, keyOf slot = .ok k := by
          obtain ⟨k, v, e'⟩ := hc.live hH h0
          exact ⟨k, by rw [e']; rfl⟩
        have := same_ok hH hwc h0 hk
        unfold OkR at this ⊢
        split
        · rfl
        · rename_i e1; rw [e1] at this; exact this
      rintro b _ rfl
      by_cases hb : b = true
      · rw [if_pos hb]
        exact fin _ (Live.here (by omega) h0)
      · rw [if_neg hb]
        refine Ok.bind (P := fun _ l' => l = l') (Ok.res (shr_ok' hs _ rfl)) ?_
        rintro hidx _ rfl
        have hni : Map.nxt cap idx < cap := Map.nxt_lt hi
        by_cases hd : Map.pdist cap hidx idx < dist
        · rw [if_pos hd]
          refine Ok.bind (P := fun r l' => r = (slot, c) ∧ l = l') (Ok.of_run (swap_ok hH hwc hc l) ⟨rfl, rfl⟩) ?_
          rintro _ _ ⟨rfl, rfl⟩
          refine Ok.mono (ih _ c _ _ _ _ (by simp [hl]) (hw.set hc) hwc hz hni ?_) ?_
          · intro p hpp
            cases pl with
            | none => simp at hpp; subst hpp; exact Live.here (by omega) h0
            | some q => simp at hpp; subst hpp; exact (hp q rfl).set h0
          · rintro r l' ⟨r1, r2, r3, r4, r5, r6⟩
            refine ⟨r1, r2, r3, r4, r5, fun x => ?_⟩
            have := cntT_set x tab idx slot c e
            have := r6 x
            dsimp only at this
            omega
        · rw [if_neg hd]
          exact ih tab slot _ _ pl _ hl hw hc h0 hni hp

/-- The table's indices are in range for every hash. -/
structure Rng (cap shift : Nat) : Prop where
  sh : shift < 64
  lt : ∀ h, h < 2 ^ 64 → h / 2 ^ shift < cap

theorem insert_slot_ok (hH : HashNZ H) {cap shift : Nat} (hr : Rng cap shift) (fuel : Nat)
    (tab : List (Cell K V)) (slot : Cell K V) (l : Ledger K V) (hl : tab.length = cap) (hw : WfT H tab)
    (hc : WfC H slot) (h0 : slot.hash ≠ 0) :
    Ok (insert_slot fuel cap shift tab slot) l (fun r l' =>
        r.1.length = cap ∧ WfT H r.1 ∧ r.2.1 = ⟨0, none⟩ ∧ Live r.1 r.2.2 ∧ l'.made = l.made ∧
        ∀ x, cntT x r.1 + cnt x l'.dead = cntT x tab + cntC x slot + cnt x l.dead) := by
  unfold insert_slot
  refine Ok.bind (P := fun i l' => l = l' ∧ i < cap) (Ok.res (shr_ok' hr.sh _ ⟨rfl, ?_⟩)) ?_
  · obtain ⟨k, v, e⟩ := hc.live hH h0
    rw [e]; exact hr.lt _ (hH.lt k)
  rintro i l' ⟨h1, hi⟩
  subst h1
  exact insertLoop_ok hH hr.sh fuel tab slot i 0 none l hl hw hc h0 hi (by simp)

theorem rehash_ok (hH : HashNZ H) {cap shift : Nat} (hr : Rng cap shift) (fuel : Nat) :
    ∀ (old tab : List (Cell K V)) (l : Ledger K V), tab.length = cap → WfT H tab → WfT H old →
      Ok (rehash fuel cap shift old tab) l (fun r l' =>
        r.2.length = cap ∧ WfT H r.2 ∧ (∀ c ∈ r.1, c.data = none) ∧ l'.made = l.made ∧
        ∀ x, cntT x r.2 + cnt x l'.dead = cntT x tab + cntT x old + cnt x l.dead) := by
  intro old
  induction old with
  | nil =>
    intro tab l hl hw ho
    exact Ok.ret ⟨hl, hw, by simp, rfl, fun x => by simp [cntT_nil]⟩
  | cons c old ih =>
    intro tab l hl hw ho
    have hc := ho c List.mem_cons_self
    have ho' : WfT H old := fun d hd => ho d (List.mem_cons_of_mem _ hd)
    unfold rehash
    by_cases h0 : c.hash ≠ 0
    · rw [if_pos h0]
      refine Ok.bind (insert_slot_ok hH hr fuel tab c l hl hw hc h0) ?_
      rintro ⟨t, s, i⟩ l1 ⟨r1, r2, r3, _, r5, r6⟩
      dsimp only at r1 r2 r3 r5 r6 ⊢
      refine Ok.bind (ih t l1 r1 r2 ho') ?_
      rintro ⟨o, t2⟩ l2 ⟨q1, q2, q3, q5, q6⟩
      dsimp only at q1 q2 q3 q5 q6 ⊢
      refine Ok.ret ⟨q1, q2, ?_, by rw [q5, r5], fun x => ?_⟩
      · intro d hd
        rcases List.mem_cons.mp hd with hd | hd
        · rw [hd, r3]
        · exact q3 d hd
      · have := r6 x; have := q6 x
        rw [cntT_cons]; dsimp only; omega
    · rw [if_neg h0]
      have h0 : c.hash = 0 := by simpa using h0
      have hd := hc.dead hH h0
      refine Ok.bind (ih tab l hl hw ho') ?_
      rintro ⟨o, t2⟩ l2 ⟨q1, q2, q3, q5, q6⟩
      dsimp only at q1 q2 q3 q5 q6 ⊢
      refine Ok.ret ⟨q1, q2, ?_, q5, fun x => ?_⟩
      · intro d hd'
        rcases List.mem_cons.mp hd' with hd' | hd'
        · rw [hd', hd]
        · exact q3 d hd'
      · have := q6 x
        rw [cntT_cons, hd, cntC_none]; dsimp only; omega

theorem freeTab_ok {tab : List (Cell K V)} (h : ∀ c ∈ tab, c.data = none) (l : Ledger K V) :
    freeTab tab l = .ok ((), l) := by
  unfold freeTab
  rw [if_neg]
  simp only [List.any_eq_true, not_exists, not_and]
  intro c hc; rw [h c hc]; simp

theorem fixLoop_ok (hH : HashNZ H) {cap shift : Nat} (hs : shift < 64) :
    ∀ (fuel : Nat) (tab : List (Cell K V)) (idx : Nat) (l : Ledger K V), tab.length = cap → WfT H tab →
      idx < cap →
      Ok (fixLoop cap shift fuel tab idx) l (fun t l' =>
        t.length = cap ∧ WfT H t ∧ l'.made = l.made ∧
        ∀ x, cntT x t + cnt x l'.dead = cntT x tab + cnt x l.dead) := by
  intro fuel
  induction fuel with
  | zero => intros; exact .inr (.inr rfl)
  | succ fuel ih =>
    intro tab idx l hl hw hi
    unfold fixLoop
    dsimp only
    generalize hn : (if idx = cap - 1 then 0 else idx + 1) = next
    have hnl : next < cap := by subst hn; split <;> omega
    obtain ⟨s, es⟩ : ∃ s, tab[next]? = some s := ⟨tab[next], by rw [List.getElem?_eq_getElem]⟩
    obtain ⟨c, ec⟩ : ∃ c, tab[idx]? = some c := ⟨tab[idx], by rw [List.getElem?_eq_getElem]⟩
    rw [es, ec]
    dsimp only
    have hsw := hw.get es
    have hcw := hw.get ec
    by_cases h0 : s.hash = 0
    · rw [if_pos h0]; exact Ok.ret ⟨hl, hw, rfl, fun x => rfl⟩
    rw [if_neg h0]
    refine Ok.bind (P := fun _ l' => l = l') (Ok.res (shr_ok' hs _ rfl)) ?_
    rintro ni l' rfl
    by_cases h1 : next = ni
    · rw [if_pos h1]; exact Ok.ret ⟨hl, hw, rfl, fun x => rfl⟩
    rw [if_neg h1]
    by_cases h2 : next = idx
    · rw [if_pos h2]
      obtain ⟨l2, e, m1, m2⟩ := dtor_ok hH hcw l
      refine Ok.bind (P := fun r l'' => r = ⟨0, none⟩ ∧ l2 = l'') (Ok.of_run e ⟨rfl, rfl⟩) ?_
      rintro _ _ ⟨rfl, rfl⟩
      refine Ok.mono (ih _ next l2 (by simp [hl]) (hw.set .empty) hnl) ?_
      rintro t l3 ⟨q1, q2, q3, q4⟩
      refine ⟨q1, q2, by rw [q3, m1], fun x => ?_⟩
      have := q4 x; have := m2 x; have := cntT_set x tab idx ⟨0, none⟩ c ec
      rw [cntC_none] at this
      omega
    · rw [if_neg h2]
      obtain ⟨l2, e, m1, m2⟩ := assign_ok hH hcw hsw l
      refine Ok.bind (P := fun r l'' => r = (s, ⟨0, none⟩) ∧ l2 = l'') (Ok.of_run e ⟨rfl, rfl⟩) ?_
      rintro _ _ ⟨rfl, rfl⟩
      refine Ok.mono (ih _ next l2 (by simp [hl]) ((hw.set hsw).set .empty) hnl) ?_
      rintro t l3 ⟨q1, q2, q3, q4⟩
      refine ⟨q1, q2, by rw [q3, m1], fun x => ?_⟩
      have := q4 x; have := m2 x; have a1 := cntT_set x tab idx s c ec
      have a2 := cntT_set x (tab.set idx s) next ⟨0, none⟩ s
        (by rw [List.getElem?_set_ne (fun h => h2 h.symm)]; exact es)
      rw [cntC_none] at a2
      dsimp only at *
      omega

theorem findLoop_ok (hH : HashNZ H) {cap shift : Nat} (hs : shift < 64) (tab : List (Cell K V))
    (hl : tab.length = cap) (hw : WfT H tab) {hash : Nat} (h0 : hash ≠ 0) (key : K) :
    ∀ (fuel idx dist : Nat), idx < cap →
      OkR (findLoop cap shift tab hash key fuel idx dist) (fun r => ∀ i, r = some i → Live tab i) := by
  intro fuel
  induction fuel with
  | zero => intros; exact .inr (.inr rfl)
  | succ fuel ih =>
    intro idx dist hi
    unfold findLoop
    obtain ⟨c, e⟩ : ∃ c, tab[idx]? = some c := ⟨tab[idx], by rw [List.getElem?_eq_getElem]⟩
    rw [e]
    dsimp only
    by_cases hz : c.hash = 0
    · rw [if_pos hz]; intro i h; cases h
    rw [if_neg hz]
    refine OkR.bind (same_ok hH (hw.get e) h0 ⟨key, rfl⟩) ?_
    intro b hb
    by_cases hbt : b = true
    · rw [if_pos hbt]
      intro i h
      cases h
      exact ⟨c, e, hz⟩
    rw [if_neg hbt]
    refine OkR.bind (shr_ok' hs (fun _ => True) trivial) ?_
    intro ki _
    by_cases hd : Map.pdist cap ki idx < dist
    · rw [if_pos hd]; intro i h; cases h
    · rw [if_neg hd]; exact ih _ _ (Map.nxt_lt hi)

theorem eraseLoop_ok (hH : HashNZ H) {cap shift : Nat} (hs : shift < 64) (f : Nat) (tab : List (Cell K V))
    (hl : tab.length = cap) (hw : WfT H tab) {hash : Nat} (h0 : hash ≠ 0) (key : K) :
    ∀ (fuel idx dist : Nat) (l : Ledger K V), idx < cap →
      Ok (eraseLoop f cap shift tab hash key fuel idx dist) l (fun r l' => l'.made = l.made ∧
        (r = none → l' = l) ∧
        ∀ t, r = some t → t.length = cap ∧ WfT H t ∧ tab.filterMap Cell.data ≠ [] ∧
          ∀ x, cntT x t + cnt x l'.dead = cntT x tab + cnt x l.dead) := by
  intro fuel
  induction fuel with
  | zero => intros; exact .inr (.inr rfl)
  | succ fuel ih =>
    intro idx dist l hi
    unfold eraseLoop
    obtain ⟨c, e⟩ : ∃ c, tab[idx]? = some c := ⟨tab[idx], by rw [List.getElem?_eq_getElem]⟩
    rw [e]
    dsimp only
    have hcw := hw.get e
    refine Ok.bind (P := fun b l' => l = l' ∧ (b = true → c.hash ≠ 0)) (Ok.res ?_) ?_
    · have := same_ok hH hcw h0 (r := .ok key) ⟨key, rfl⟩
      unfold OkR at this ⊢
      split
      · rename_i e1; rw [e1] at this; exact ⟨rfl, this⟩
      · rename_i e1; rw [e1] at this; exact this
    rintro b l' ⟨rfl, hb⟩
    by_cases hbt : b = true
    · rw [if_pos hbt]
      obtain ⟨k, v, ek⟩ := hcw.live hH (hb hbt)
      obtain ⟨l2, e2, m1, m2⟩ := dtor_ok hH hcw l
      refine Ok.bind (P := fun r l'' => r = ⟨0, none⟩ ∧ l2 = l'') (Ok.of_run e2 ⟨rfl, rfl⟩) ?_
      rintro _ _ ⟨rfl, rfl⟩
      refine Ok.bind (fixLoop_ok hH hs f _ idx l2 (by simp [hl]) (hw.set .empty) hi) ?_
      rintro t l3 ⟨q1, q2, q3, q4⟩
      refine Ok.ret ⟨by rw [q3, m1], by simp, ?_⟩
      intro t' ht
      injection ht with ht
      subst ht
      refine ⟨q1, q2, ?_, fun x => ?_⟩
      · intro hnil
        rw [List.filterMap_eq_nil_iff] at hnil
        have := hnil c (List.mem_of_getElem? e)
        rw [ek] at this; cases this
      · have := q4 x; have := m2 x; have a1 := cntT_set x tab idx ⟨0, none⟩ c e
        rw [cntC_none] at a1
        omega
    rw [if_neg hbt]
    refine Ok.bind (P := fun _ l' => l = l') (Ok.res (shr_ok' hs _ rfl)) ?_
    rintro ki l' rfl
    by_cases hd : Map.pdist cap ki idx < dist
    · rw [if_pos hd]; exact Ok.ret ⟨rfl, fun _ => rfl, by simp⟩
    · rw [if_neg hd]; exact ih _ _ l (Map.nxt_lt hi)

theorem dtorAll_ok (hH : HashNZ H) : ∀ (tab : List (Cell K V)) (l : Ledger K V), WfT H tab →
    ∃ l', dtorAll tab l = .ok (List.replicate tab.length ⟨0, none⟩, l') ∧ l'.made = l.made ∧
      ∀ x, cnt x l'.dead = cnt x l.dead + cntT x tab := by
  intro tab
  induction tab with
  | nil => intro l _; exact ⟨l, rfl, rfl, fun x => rfl⟩
  | cons c tab ih =>
    intro l hw
    obtain ⟨l1, e1, m1, m2⟩ := dtor_ok hH (hw c List.mem_cons_self) l
    obtain ⟨l2, e2, n1, n2⟩ := ih l1 (fun d hd => hw d (List.mem_cons_of_mem _ hd))
    refine ⟨l2, ?_, by rw [n1, m1], fun x => ?_⟩
    · unfold dtorAll
      simp only [bind, StateT.bind, e1, Except.bind, e2]
      rfl
    · rw [n2, m2, cntT_cons]; omega

theorem cloneLoop_ok (hH : HashNZ H) : ∀ (src ret : List (Cell K V)) (l : Ledger K V), WfT H src →
    (∀ c ∈ ret, c = ⟨0, none⟩) → src.length ≤ ret.length →
    Ok (cloneLoop H src ret) l (fun t l' => t.length = ret.length ∧ WfT H t ∧ l'.dead = l.dead ∧
      (∀ x, cntT x t = cntT x src) ∧ ∀ x, cnt x l'.made = cnt x l.made + cntT x src) := by
  intro src
  induction src with
  | nil =>
    intro ret l _ hr _
    refine Ok.ret ⟨rfl, fun c hc => .inl (hr c hc), rfl, fun x => ?_, fun x => rfl⟩
    have : ret = List.replicate ret.length ⟨0, none⟩ := List.eq_replicate_iff.mpr ⟨rfl, hr⟩
    rw [this, cntT_replicate]; rfl
  | cons c src ih =>
    intro ret l hw hr hle
    cases ret with
    | nil => simp at hle
    | cons r ret =>
      have hcw := hw c List.mem_cons_self
      have hw' : WfT H src := fun d hd => hw d (List.mem_cons_of_mem _ hd)
      have hr' : ∀ c ∈ ret, c = ⟨0, none⟩ := fun d hd => hr d (List.mem_cons_of_mem _ hd)
      have her := hr r List.mem_cons_self
      have hle' : src.length ≤ ret.length := by simpa using hle
      unfold cloneLoop
      by_cases h0 : c.hash ≠ 0
      · rw [if_pos h0]
        obtain ⟨k, v, ek⟩ := hcw.live hH h0
        subst her ek
        refine Ok.bind (P := fun a l' => k = a ∧ l = l') ⟨rfl, rfl⟩ ?_
        rintro _ _ ⟨rfl, rfl⟩
        refine Ok.bind (P := fun a l' => v = a ∧ l = l') ⟨rfl, rfl⟩ ?_
        rintro _ _ ⟨rfl, rfl⟩
        refine Ok.bind (P := fun _ l' => l = l') rfl ?_
        rintro _ _ rfl
        refine Ok.bind (P := fun a l' => a = ⟨H k, some (k, v)⟩ ∧ l' = { l with made := (k, v) :: l.made })
          ⟨rfl, rfl⟩ ?_
        rintro _ _ ⟨rfl, rfl⟩
        refine Ok.bind (ih ret _ hw' hr' hle') ?_
        rintro t l1 ⟨q1, q2, q3, q4, q5⟩
        refine Ok.ret ⟨by simp [q1], ?_, q3, fun x => ?_, fun x => ?_⟩
        · intro d hd
          rcases List.mem_cons.mp hd with hd | hd
          · rw [hd]; exact .inr ⟨k, v, rfl⟩
          · exact q2 d hd
        · rw [cntT_cons, cntT_cons, q4]
        · rw [q5, cntT_cons, cntC_some]; dsimp only; rw [cnt_cons]; omega
      · rw [if_neg h0]
        have h0 : c.hash = 0 := by simpa using h0
        have hd := hcw.dead hH h0
        subst her hd
        refine Ok.bind (ih ret _ hw' hr' hle') ?_
        rintro t l1 ⟨q1, q2, q3, q4, q5⟩
        refine Ok.ret ⟨by simp [q1], ?_, q3, fun x => ?_, fun x => ?_⟩
        · intro d hd
          rcases List.mem_cons.mp hd with hd | hd
          · rw [hd]; exact .inl rfl
          · exact q2 d hd
        · rw [cntT_cons, cntT_cons, q4]
        · rw [q5, cntT_cons, cntC_none]; omega

/-! ### Maps -/

/-- What is kept by every operation, whatever the program. -/
structure Inv (H : K → Nat) (lim : Nat) (m : LMap K V) : Prop where
  len : m.data.length = m.cap
  wf : WfT H m.data
  us : m.usable = m.cap / 4 * 3
  fits : m.cap ≤ lim
  big : 2 ≤ m.cap → Rng m.cap m.shift
  small : m.cap < 2 → m.len = 0

theorem Inv.nil {lim : Nat} : Inv H lim (LMap.nil : LMap K V) :=
  ⟨rfl, fun _ h => by simp [LMap.nil] at h, by simp [LMap.nil], Nat.zero_le _,
    fun h => absurd h (by simp [LMap.nil]), fun _ => rfl⟩

theorem rng_of {cap : Nat} (h2 : 2 ≤ cap) (hc : cap < 2 ^ 64) : Rng cap (Math.ctlz 64 cap + 1) :=
  ⟨(Map.shift_ok h2 hc).1, (Map.shift_ok h2 hc).2⟩

theorem next_pow2_ok {n : Nat} (hn : n < 2 ^ 64) : OkR (Math.next_pow2 64 n) (fun c => n ≤ 2 ^ 63 → n ≤ c) := by
  by_cases h0 : n = 0
  · subst h0; intro _; exact Nat.zero_le _
  by_cases hb : n ≤ 2 ^ 63
  · obtain ⟨r, e, _, hle, _⟩ := Props.C01_next_pow2 (w := 64) (x := n) (by omega) (by omega) hb
    rw [e]; intro _; exact hle
  · rw [Props.C01_next_pow2_overflow (w := 64) (by omega) (by simpa using hb) hn]
    intro h; omega

theorem wft_replicate (n : Nat) : WfT H (List.replicate n (⟨0, none⟩ : Cell K V)) := by
  intro c hc; rw [List.eq_of_mem_replicate hc]; exact .inl rfl

theorem withCapacity_ok {lim n : Nat} (hlim : lim < 2 ^ 62) (hn : n < 2 ^ 64) (l : Ledger K V) :
    Ok (withCapacity lim n) l (fun m l' => l = l' ∧ Inv H lim m ∧ (n ≤ 2 ^ 63 → n ≤ m.cap) ∧ m.len = 0 ∧
      ∀ c ∈ m.data, c = ⟨0, none⟩) := by
  unfold withCapacity
  refine Ok.bind (P := fun c l' => l = l' ∧ (n ≤ 2 ^ 63 → n ≤ c)) (Ok.res ?_) ?_
  · have := next_pow2_ok hn
    unfold OkR at this ⊢
    split
    · rename_i e; rw [e] at this; exact ⟨rfl, this⟩
    · rename_i e; rw [e] at this; exact this
  rintro c l' ⟨rfl, hc⟩
  unfold allocZero
  by_cases h : c > lim
  · rw [if_pos h]; exact .inr (.inl rfl)
  rw [if_neg h]
  refine Ok.bind (P := fun d l' => d = List.replicate c ⟨0, none⟩ ∧ l = l') ⟨rfl, rfl⟩ ?_
  rintro _ _ ⟨rfl, rfl⟩
  refine Ok.ret ⟨rfl, ⟨by simp, wft_replicate _, rfl, by simpa using h, fun h2 => rng_of h2 (by
    have : c ≤ lim := by omega
    show c < 2 ^ 64
    omega), fun _ => rfl⟩, hc, rfl, fun d hd => List.eq_of_mem_replicate hd⟩

theorem reserve_ok (hH : HashNZ H) {lim : Nat} (hlim : lim < 2 ^ 62) (fuel : Nat → Nat) {m : LMap K V}
    (hi : Inv H lim m) (n : Nat) (l : Ledger K V) :
    Ok (reserve fuel lim m n) l (fun m' l' => Inv H lim m' ∧ m'.len = m.len ∧ m.cap ≤ m'.cap ∧ n ≤ m'.cap ∧
      l'.made = l.made ∧
      ∀ x, cntT x m'.data + cnt x l'.dead = cntT x m.data + cnt x l.dead) := by
  unfold reserve
  by_cases h : n ≤ m.cap
  · rw [if_pos h]; exact Ok.ret ⟨hi, rfl, le_refl _, h, rfl, fun x => rfl⟩
  rw [if_neg h]
  dsimp only
  unfold allocZero
  by_cases h2 : n > lim
  · rw [if_pos h2]; exact .inr (.inl rfl)
  rw [if_neg h2]
  refine Ok.bind (P := fun d l' => d = List.replicate n ⟨0, none⟩ ∧ l = l') ⟨rfl, rfl⟩ ?_
  rintro _ _ ⟨rfl, rfl⟩
  have hrun : Ok (rehash (fuel n) n (Math.ctlz 64 n + 1) m.data (List.replicate n ⟨0, none⟩)) l (fun r l' =>
        r.2.length = n ∧ WfT H r.2 ∧ (∀ c ∈ r.1, c.data = none) ∧ l'.made = l.made ∧
        ∀ x, cntT x r.2 + cnt x l'.dead = cntT x m.data + cnt x l.dead) := by
    by_cases hn : 2 ≤ n
    · refine Ok.mono (rehash_ok hH (rng_of hn (by omega)) (fuel n) m.data (List.replicate n ⟨0, none⟩) l
        (by simp) (wft_replicate _) hi.wf) ?_
      rintro r l' ⟨q1, q2, q3, q4, q5⟩
      refine ⟨q1, q2, q3, q4, fun x => ?_⟩
      have := q5 x
      rw [cntT_replicate] at this; omega
    · have h0 : m.cap = 0 := by omega
      have : m.data = [] := by rw [← List.length_eq_zero_iff, hi.len, h0]
      rw [this]
      exact ⟨by simp, wft_replicate _, by simp, rfl, fun x => by rw [cntT_replicate]; rfl⟩
  refine Ok.bind hrun ?_
  rintro ⟨o, t⟩ l1 ⟨q1, q2, q3, q4, q5⟩
  dsimp only at q1 q2 q3 q4 q5 ⊢
  refine Ok.bind (P := fun _ l' => l1 = l') (Ok.of_run (freeTab_ok q3 l1) rfl) ?_
  rintro _ _ rfl
  refine Ok.ret ⟨⟨q1, q2, rfl, by dsimp only; omega, fun hb => rng_of hb (by dsimp only at *; omega), fun hs => ?_⟩, rfl,
    by dsimp only; omega, le_refl _, q4, q5⟩
  dsimp only at hs ⊢
  exact hi.small (by omega)

theorem insert_ok (hH : HashNZ H) {lim : Nat} (hlim : lim < 2 ^ 62) (fuel : Nat → Nat) {m : LMap K V}
    (hi : Inv H lim m) (k : K) (v : V) (l : Ledger K V) :
    Ok (insert fuel H lim m k v) l (fun r l' => Inv H lim r.1 ∧ Live r.1.data r.2 ∧
      l'.made = (k, v) :: l.made ∧
      ∀ x, cntT x r.1.data + cnt x l'.dead = cntT x m.data + cnt x [(k, v)] + cnt x l.dead) := by
  unfold insert
  refine Ok.bind (P := fun m' l' => Inv H lim m' ∧ 2 ≤ m'.cap ∧ l'.made = l.made ∧
      ∀ x, cntT x m'.data + cnt x l'.dead = cntT x m.data + cnt x l.dead) ?_ ?_
  · by_cases h : m.len = m.usable
    · rw [if_pos h]
      refine Ok.mono (reserve_ok hH hlim fuel hi _ l) ?_
      rintro m' l' ⟨q1, _, _, q4, q5, q6⟩
      refine ⟨q1, ?_, q5, q6⟩
      split at q4 <;> omega
    · rw [if_neg h]
      refine Ok.ret ⟨hi, ?_, rfl, fun x => rfl⟩
      by_contra h2
      have := hi.small (by omega)
      have := hi.us
      omega
  rintro m1 l1 ⟨i1, h2, d1, c1⟩
  refine Ok.bind (P := fun s l' => s = ⟨H k, some (k, v)⟩ ∧ l' = { l1 with made := (k, v) :: l1.made })
    ⟨rfl, rfl⟩ ?_
  rintro _ _ ⟨rfl, rfl⟩
  refine Ok.bind (insert_slot_ok hH (i1.big h2) (fuel m1.cap) m1.data ⟨H k, some (k, v)⟩ _ i1.len i1.wf
    (.inr ⟨k, v, rfl⟩) (hH.nz k)) ?_
  rintro ⟨t, s, i⟩ l2 ⟨r1, r2, r3, r4, r5, r6⟩
  dsimp only at r1 r2 r3 r4 r5 r6 ⊢
  subst r3
  obtain ⟨l3, e3, m3, n3⟩ := dtor_ok hH (c := (⟨0, none⟩ : Cell K V)) (.inl rfl) l2
  refine Ok.bind (P := fun r l'' => r = ⟨0, none⟩ ∧ l3 = l'') (Ok.of_run e3 ⟨rfl, rfl⟩) ?_
  rintro _ _ ⟨rfl, rfl⟩
  refine Ok.bind (P := fun _ l' => l3 = l') rfl ?_
  rintro _ _ rfl
  refine Ok.ret ⟨⟨r1, r2, i1.us, i1.fits, i1.big, fun h => ?_⟩, r4, by rw [m3, r5, d1], fun x => ?_⟩
  · dsimp only at h; omega
  · have := r6 x; have := n3 x; have := c1 x
    rw [cntC_some] at *
    rw [cntC_none] at *
    dsimp only at *
    omega

theorem valAt_ok (hH : HashNZ H) {m : LMap K V} (hw : WfT H m.data) {i : Nat} (h : Live m.data i) :
    OkR (valAt m i) (fun v => ∃ k, (k, v) ∈ m.data.filterMap Cell.data) := by
  obtain ⟨c, e, h0⟩ := h
  obtain ⟨k, v, ek⟩ := (hw.get e).live hH h0
  unfold valAt
  rw [e, ek]
  refine ⟨k, List.mem_filterMap.mpr ⟨c, List.mem_of_getElem? e, by rw [ek]⟩⟩

theorem find_ok (hH : HashNZ H) {lim : Nat} (fuel : Nat → Nat) {m : LMap K V}
    (hi : Inv H lim m) (h0 : m.len ≠ 0) (k : K) :
    OkR (find fuel H m k) (fun r => ∀ i, r = some i → Live m.data i) := by
  have hr : Rng m.cap m.shift := hi.big (by
    by_contra h2; exact h0 (hi.small (by omega)))
  unfold find
  refine OkR.bind (P := fun i => i < m.cap) (shr_ok' hr.sh _ (hr.lt _ (hH.lt k))) ?_
  intro i hi'
  exact findLoop_ok hH hr.sh m.data hi.len hi.wf (hH.nz k) k _ i 0 hi'

theorem OkR.weaken {α : Type} {r : Res α} {P : α → Prop} (h : OkR r P) {Q : α → Prop} (hq : ∀ a, P a → Q a) :
    OkR r Q := by
  cases r with
  | error e => exact h
  | ok a => exact hq a h

theorem assignAt_ok (hH : HashNZ H) {lim : Nat} (fuel : Nat → Nat) {m : LMap K V}
    (hi : Inv H lim m) (k : K) (v : V) (l : Ledger K V) :
    Ok (assignAt fuel H m k v) l (fun m' l' => Inv H lim m' ∧
      ∀ x, cntT x m'.data + cnt x l'.dead + cnt x l.made = cntT x m.data + cnt x l.dead + cnt x l'.made) := by
  unfold assignAt
  by_cases h0 : m.len = 0
  · rw [if_pos h0]; exact .inl rfl
  rw [if_neg h0]
  refine Ok.bind (P := fun r l' => l = l' ∧ ∀ i, r = some i → Live m.data i)
    (Ok.res ((find_ok hH fuel hi h0 k).weaken (fun _ h => ⟨rfl, h⟩))) ?_
  rintro r _ ⟨rfl, hr⟩
  cases r with
  | none => exact .inl rfl
  | some i =>
    obtain ⟨c, e, hc⟩ := hr i rfl
    obtain ⟨k', v', ek⟩ := (hi.wf.get e).live hH hc
    dsimp only
    rw [e]
    subst ek
    refine Ok.bind (P := fun c' l' => c' = ⟨H k', some (k', v)⟩ ∧
      l' = { made := (k', v) :: l.made, dead := (k', v') :: l.dead }) ⟨rfl, rfl⟩ ?_
    rintro _ _ ⟨rfl, rfl⟩
    refine Ok.ret ⟨⟨by simp [hi.len], hi.wf.set (.inr ⟨k', v, rfl⟩), hi.us, hi.fits, hi.big, hi.small⟩, fun x => ?_⟩
    have a := cntT_set x m.data i ⟨H k', some (k', v)⟩ _ e
    rw [cntC_some, cntC_some] at a
    dsimp only
    rw [cnt_cons x _ l.made, cnt_cons x _ l.dead]
    omega

theorem skip_ok {lim : Nat} {m : LMap K V} (hi : Inv H lim m) : ∀ n count, count ≤ m.cap → m.cap ≤ n + count →
    OkR (skip m n count) (fun j => j = m.cap ∨ Live m.data j) := by
  intro n
  induction n with
  | zero => intro count h1 h2; exact .inl (by omega)
  | succ n ih =>
    intro count h1 h2
    unfold skip
    by_cases hc : count < m.cap
    · rw [if_pos hc]
      obtain ⟨c, e⟩ : ∃ c, m.data[count]? = some c :=
        ⟨m.data[count]'(by rw [hi.len]; exact hc), by rw [List.getElem?_eq_getElem]⟩
      rw [e]
      dsimp only
      by_cases h0 : c.hash = 0
      · rw [if_pos h0]; exact ih (count + 1) (by omega) (by omega)
      · rw [if_neg h0]; exact .inr ⟨c, e, h0⟩
    · rw [if_neg hc]; exact .inl (by omega)

theorem iterLoop_ok (hH : HashNZ H) {lim : Nat} {m : LMap K V} (hi : Inv H lim m) : ∀ fuel count,
    count = m.cap ∨ Live m.data count → OkR (iterLoop m fuel count) (fun _ => True) := by
  intro fuel
  induction fuel with
  | zero => intro _ _; exact .inr (.inr rfl)
  | succ fuel ih =>
    intro count h
    unfold iterLoop
    by_cases hc : count = m.cap
    · rw [if_pos hc]; trivial
    rw [if_neg hc]
    obtain ⟨c, e, h0⟩ := h.resolve_left hc
    obtain ⟨k, v, ek⟩ := (hi.wf.get e).live hH h0
    rw [e]
    dsimp only
    subst ek
    have hl := (List.getElem?_eq_some_iff.mp e).1
    rw [hi.len] at hl
    refine OkR.bind (P := fun _ => True) trivial fun _ _ => ?_
    refine OkR.bind (P := fun _ => True) trivial fun _ _ => ?_
    refine OkR.bind (skip_ok hi m.cap (count + 1) (by omega) (by omega)) fun j hj => ?_
    exact OkR.bind (ih j hj) fun _ _ => OkR.ret trivial

theorem iter_ok (hH : HashNZ H) {lim : Nat} (fuel : Nat → Nat) {m : LMap K V} (hi : Inv H lim m) :
    OkR (iter fuel m) (fun _ => True) := by
  unfold iter
  exact OkR.bind (skip_ok hi m.cap 0 (by omega) (by omega)) fun j hj => iterLoop_ok hH hi _ j hj

theorem try_get_ok (hH : HashNZ H) {lim : Nat} (fuel : Nat → Nat) {m : LMap K V}
    (hi : Inv H lim m) (k : K) :
    OkR (try_get fuel H m k) (fun r => ∀ v, r = some v → ∃ k, (k, v) ∈ m.data.filterMap Cell.data) := by
  unfold try_get
  by_cases h0 : m.len = 0
  · rw [if_pos h0]; intro v h; cases h
  rw [if_neg h0]
  have hr : Rng m.cap m.shift := hi.big (by
    by_contra h2; exact h0 (hi.small (by omega)))
  have hf : OkR (find fuel H m k) (fun r => ∀ i, r = some i → Live m.data i) := by
    unfold find
    refine OkR.bind (P := fun i => i < m.cap) (shr_ok' hr.sh _ (hr.lt _ (hH.lt k))) ?_
    intro i hi'
    exact findLoop_ok hH hr.sh m.data hi.len hi.wf (hH.nz k) k _ i 0 hi'
  refine OkR.bind hf ?_
  intro r hrr
  cases r with
  | none => intro v h; cases h
  | some i =>
    refine OkR.bind (valAt_ok hH hi.wf (hrr i rfl)) ?_
    intro v hv v' hv'
    cases hv'
    exact hv

theorem try_erase_ok (hH : HashNZ H) {lim : Nat} (fuel : Nat → Nat) {m : LMap K V}
    (hi : Inv H lim m) (k : K) (l : Ledger K V) :
    Ok (try_erase fuel H m k) l (fun r l' => Inv H lim r.1 ∧ l'.made = l.made ∧
      ∀ x, cntT x r.1.data + cnt x l'.dead = cntT x m.data + cnt x l.dead) := by
  unfold try_erase
  by_cases h0 : m.len = 0
  · rw [if_pos h0]; exact Ok.ret ⟨hi, rfl, fun x => rfl⟩
  rw [if_neg h0]
  have h2 : 2 ≤ m.cap := by by_contra h2; exact h0 (hi.small (by omega))
  have hr : Rng m.cap m.shift := hi.big h2
  refine Ok.bind (P := fun i l' => l = l' ∧ i < m.cap) (Ok.res (shr_ok' hr.sh _ ⟨rfl, hr.lt _ (hH.lt k)⟩)) ?_
  rintro i l' ⟨rfl, hil⟩
  refine Ok.bind (eraseLoop_ok hH hr.sh _ m.data hi.len hi.wf (hH.nz k) k _ i 0 l hil) ?_
  rintro r l1 ⟨a1, a2, a3⟩
  cases r with
  | none =>
    have := a2 rfl
    subst this
    exact Ok.ret ⟨hi, rfl, fun x => rfl⟩
  | some t =>
    obtain ⟨b1, b2, _, b3⟩ := a3 t rfl
    refine Ok.ret ⟨⟨b1, b2, hi.us, hi.fits, hi.big, fun h => ?_⟩, a1, b3⟩
    dsimp only at h; omega

theorem clear_ok (hH : HashNZ H) {lim : Nat} {m : LMap K V} (hi : Inv H lim m) (l : Ledger K V) :
    Ok (clear m) l (fun m' l' => Inv H lim m' ∧ (∀ c ∈ m'.data, c.data = none) ∧ l'.made = l.made ∧
      ∀ x, cntT x m'.data + cnt x l'.dead = cntT x m.data + cnt x l.dead) := by
  obtain ⟨l2, e2, n1, n2⟩ := dtorAll_ok hH m.data l hi.wf
  unfold clear
  refine Ok.bind (P := fun r l'' => r = List.replicate m.data.length ⟨0, none⟩ ∧ l2 = l'') (Ok.of_run e2 ⟨rfl, rfl⟩) ?_
  rintro _ _ ⟨rfl, rfl⟩
  refine Ok.ret ⟨⟨by simp [hi.len], wft_replicate _, hi.us, hi.fits, hi.big, fun _ => rfl⟩,
    fun c hc => by rw [List.eq_of_mem_replicate hc], n1, fun x => ?_⟩
  dsimp only
  rw [cntT_replicate, n2]; omega

theorem destroy_ok (hH : HashNZ H) {m : LMap K V} (hw : WfT H m.data) (l : Ledger K V) :
    Ok (destroy m) l (fun m' l' => m' = LMap.nil ∧ l'.made = l.made ∧
      ∀ x, cnt x l'.dead = cntT x m.data + cnt x l.dead) := by
  obtain ⟨l2, e2, n1, n2⟩ := dtorAll_ok hH m.data l hw
  unfold destroy
  refine Ok.bind (P := fun r l'' => r = List.replicate m.data.length ⟨0, none⟩ ∧ l2 = l'') (Ok.of_run e2 ⟨rfl, rfl⟩) ?_
  rintro _ _ ⟨rfl, rfl⟩
  refine Ok.bind (P := fun _ l' => l2 = l') (Ok.of_run (freeTab_ok (fun c hc => by
    rw [List.eq_of_mem_replicate hc]) l2) rfl) ?_
  rintro _ _ rfl
  exact Ok.ret ⟨rfl, n1, fun x => by rw [n2]; omega⟩

theorem clone_ok (hH : HashNZ H) {lim : Nat} (hlim : lim < 2 ^ 62) {m : LMap K V} (hi : Inv H lim m)
    (l : Ledger K V) :
    Ok (clone H lim m) l (fun m' l' => Inv H lim m' ∧ l'.dead = l.dead ∧ (∀ x, cntT x m'.data = cntT x m.data) ∧
      ∀ x, cnt x l'.made = cnt x l.made + cntT x m.data) := by
  unfold clone
  have hf := hi.fits
  refine Ok.bind (withCapacity_ok (H := H) hlim (by omega) l) ?_
  rintro r _ ⟨rfl, i1, i2, i3, i4⟩
  have i2 := i2 (by omega)
  refine Ok.bind (cloneLoop_ok hH m.data r.data l hi.wf i4 (by rw [hi.len, i1.len]; exact i2)) ?_
  rintro t l1 ⟨q1, q2, q3, q4, q5⟩
  refine Ok.ret ⟨⟨by dsimp only; rw [q1, i1.len], q2, i1.us, i1.fits, i1.big, fun h => ?_⟩, q3, q4, q5⟩
  dsimp only at h ⊢
  exact hi.small (by omega)

theorem get_or_insert_ok (hH : HashNZ H) {lim : Nat} (hlim : lim < 2 ^ 62) (fuel : Nat → Nat) (d : V)
    {m : LMap K V} (hi : Inv H lim m) (k : K) (l : Ledger K V) :
    Ok (get_or_insert fuel H lim d m k) l (fun r l' => Inv H lim r.1 ∧ 
      (∃ n, l'.made = List.replicate n (k, d) ++ l.made ∧
      ∀ x, cntT x r.1.data + cnt x l'.dead = cntT x m.data + cnt x (List.replicate n (k, d)) + cnt x l.dead)) := by
  unfold get_or_insert
  refine Ok.bind (P := fun _ l' => l = l') (Ok.res ?_) ?_
  · have := try_get_ok hH fuel hi k
    unfold OkR at this ⊢
    split
    · rfl
    · rename_i e; rw [e] at this; exact this
  rintro r _ rfl
  cases r with
  | some v => exact Ok.ret ⟨hi, 0, rfl, fun x => by simp [cnt_nil]⟩
  | none =>
    refine Ok.bind (insert_ok hH hlim fuel hi k d l) ?_
    rintro ⟨m1, i⟩ l1 ⟨q1, q2, q3, q4⟩
    dsimp only at q1 q2 q3 q4 ⊢
    refine Ok.bind (P := fun _ l' => l1 = l') (Ok.res ?_) ?_
    · have := valAt_ok hH q1.wf q2
      unfold OkR at this ⊢
      split
      · rfl
      · rename_i e; rw [e] at this; exact this
    rintro v _ rfl
    exact Ok.ret ⟨q1, 1, q3, q4⟩

/-! ### Programs -/

/-- Occurrences in all maps. -/
noncomputable def cntV (x : K × V) (vs : List (LMap K V)) : Nat := (vs.map (fun m => cntT x m.data)).sum

theorem cntV_cons (x : K × V) (m : LMap K V) (vs : List (LMap K V)) :
    cntV x (m :: vs) = cntT x m.data + cntV x vs := by simp [cntV]

theorem cntV_set (x : K × V) : ∀ (vs : List (LMap K V)) (i : Nat) (m o : LMap K V), vs[i]? = some o →
    cntV x (vs.set i m) + cntT x o.data = cntV x vs + cntT x m.data := by
  intro vs
  induction vs with
  | nil => intro i m o h; simp at h
  | cons a vs ih =>
    intro i m o h
    cases i with
    | zero =>
      simp at h; subst h
      simp only [List.set_cons_zero, cntV_cons]; omega
    | succ i =>
      simp at h
      have := ih i m o h
      simp only [List.set_cons_succ, cntV_cons]; omega

theorem cntV_eq (x : K × V) (vs : List (LMap K V)) :
    cntV x vs = cnt x (vs.flatMap (fun m => m.data.filterMap Cell.data)) := by
  induction vs with
  | nil => rfl
  | cons m vs ih => rw [cntV_cons, List.flatMap_cons, cnt_append, ih, cntT_eq]

/-- Every pair that was made is in exactly one map or has been destroyed. -/
structure InvP (H : K → Nat) (lim : Nat) (vs : List (LMap K V)) (l : Ledger K V) : Prop where
  each : ∀ m ∈ vs, Inv H lim m
  bal : ∀ x, cntV x vs + cnt x l.dead = cnt x l.made

theorem InvP.set {lim : Nat} {vs : List (LMap K V)} {l l' : Ledger K V} (h : InvP H lim vs l) {i : Nat}
    {m o : LMap K V} (e : vs[i]? = some o) (hm : Inv H lim m)
    (hb : ∀ x, cntT x m.data + cnt x l'.dead + cnt x l.made = cntT x o.data + cnt x l.dead + cnt x l'.made) :
    InvP H lim (vs.set i m) l' := by
  refine ⟨fun q hq => ?_, fun x => ?_⟩
  · rcases List.mem_or_eq_of_mem_set hq with hq | hq
    · exact h.each q hq
    · rw [hq]; exact hm
  · have := cntV_set x vs i m o e
    have := h.bal x; have := hb x
    omega

theorem store_ok (hH : HashNZ H) {lim : Nat} {vs : List (LMap K V)} {l0 l : Ledger K V} (h : InvP H lim vs l0)
    (x : Nat) {tmp : LMap K V} (ht : Inv H lim tmp)
    (hb : ∀ y, cntT y tmp.data + cnt y l.dead + cnt y l0.made = cnt y l0.dead + cnt y l.made) :
    Ok (store vs x tmp) l (fun vs' l' => vs'.length = vs.length ∧ InvP H lim vs' l') := by
  unfold store
  cases e : vs[x]? with
  | none => exact .inl rfl
  | some m =>
    dsimp only
    refine Ok.bind (destroy_ok hH (h.each m (List.mem_of_getElem? e)).wf l) ?_
    rintro _ l' ⟨_, q2, q3⟩
    refine Ok.ret ⟨by simp, h.set e ht (fun y => ?_)⟩
    have := hb y; have := q3 y
    rw [q2]
    omega

/-- The numbers in an operation are `u64`. -/
def Op.Sane : Op K V → Prop
  | .make _ n => n < 2 ^ 64
  | _ => True

theorem step_ok (hH : HashNZ H) {lim : Nat} (hlim : lim < 2 ^ 62) (fuel : Nat → Nat) (d : V)
    {vs : List (LMap K V)} {l : Ledger K V} (h : InvP H lim vs l) (op : Op K V) (hop : op.Sane) :
    Ok (step fuel H lim d vs op) l (fun vs' l' => vs'.length = vs.length ∧ InvP H lim vs' l') := by
  cases op with
  | make x n =>
    unfold step
    dsimp only
    refine Ok.bind (withCapacity_ok (H := H) hlim hop l) ?_
    rintro m _ ⟨rfl, q1, _, _, q4⟩
    refine store_ok hH h x q1 (fun y => ?_)
    have : m.data = List.replicate m.data.length ⟨0, none⟩ := List.eq_replicate_iff.mpr ⟨rfl, q4⟩
    rw [this, cntT_replicate]; omega
  | insert x k v =>
    unfold step
    dsimp only
    cases e : vs[x]? with
    | none => exact .inl rfl
    | some m =>
      refine Ok.bind (insert_ok hH hlim fuel (h.each m (List.mem_of_getElem? e)) k v l) ?_
      rintro ⟨m1, i⟩ l1 ⟨q1, _, q3, q4⟩
      refine Ok.ret ⟨by simp, h.set e q1 (fun y => ?_)⟩
      have := q4 y
      rw [q3, cnt_cons]; dsimp only at *; omega
  | tryGet x k =>
    unfold step
    dsimp only
    cases e : vs[x]? with
    | none => exact .inl rfl
    | some m =>
      refine Ok.bind (P := fun _ l' => l = l') (Ok.res ?_) ?_
      · have := try_get_ok hH fuel (h.each m (List.mem_of_getElem? e)) k
        unfold OkR at this ⊢
        split
        · rfl
        · rename_i e; rw [e] at this; exact this
      rintro _ _ rfl
      exact Ok.ret ⟨rfl, h⟩
  | assign x k v =>
    unfold step
    dsimp only
    cases e : vs[x]? with
    | none => exact .inl rfl
    | some m =>
      refine Ok.bind (assignAt_ok hH fuel (h.each m (List.mem_of_getElem? e)) k v l) ?_
      rintro m1 l1 ⟨q1, q2⟩
      exact Ok.ret ⟨by simp, h.set e q1 q2⟩
  | iterate x =>
    unfold step
    dsimp only
    cases e : vs[x]? with
    | none => exact .inl rfl
    | some m =>
      refine Ok.bind (P := fun _ l' => l = l')
        (Ok.res ((iter_ok hH fuel (h.each m (List.mem_of_getElem? e))).weaken fun _ _ => rfl)) ?_
      rintro _ _ rfl
      exact Ok.ret ⟨rfl, h⟩
  | tryErase x k =>
    unfold step
    dsimp only
    cases e : vs[x]? with
    | none => exact .inl rfl
    | some m =>
      refine Ok.bind (try_erase_ok hH fuel (h.each m (List.mem_of_getElem? e)) k l) ?_
      rintro ⟨m1, i⟩ l1 ⟨q1, q3, q4⟩
      refine Ok.ret ⟨by simp, h.set e q1 (fun y => ?_)⟩
      have := q4 y
      rw [q3]; dsimp only at *; omega
  | getOrInsert x k =>
    unfold step
    dsimp only
    cases e : vs[x]? with
    | none => exact .inl rfl
    | some m =>
      refine Ok.bind (get_or_insert_ok hH hlim fuel d (h.each m (List.mem_of_getElem? e)) k l) ?_
      rintro ⟨m1, i⟩ l1 ⟨q1, n, q3, q4⟩
      refine Ok.ret ⟨by simp, h.set e q1 (fun y => ?_)⟩
      have := q4 y
      rw [q3, cnt_append]; dsimp only at *; omega
  | reserve x n =>
    unfold step
    dsimp only
    cases e : vs[x]? with
    | none => exact .inl rfl
    | some m =>
      refine Ok.bind (reserve_ok hH hlim fuel (h.each m (List.mem_of_getElem? e)) n l) ?_
      rintro m1 l1 ⟨q1, _, _, _, q3, q4⟩
      refine Ok.ret ⟨by simp, h.set e q1 (fun y => ?_)⟩
      have := q4 y
      rw [q3]; omega
  | clear x =>
    unfold step
    dsimp only
    cases e : vs[x]? with
    | none => exact .inl rfl
    | some m =>
      refine Ok.bind (clear_ok hH (h.each m (List.mem_of_getElem? e)) l) ?_
      rintro m1 l1 ⟨q1, _, q3, q4⟩
      refine Ok.ret ⟨by simp, h.set e q1 (fun y => ?_)⟩
      have := q4 y
      rw [q3]; omega
  | move x y =>
    unfold step
    dsimp only
    cases ey : vs[y]? with
    | none => exact .inl rfl
    | some src =>
      cases ex : vs[x]? with
      | none => exact .inl rfl
      | some m =>
        dsimp only
        refine Ok.bind (destroy_ok hH (h.each m (List.mem_of_getElem? ex)).wf l) ?_
        rintro _ l1 ⟨rfl, q2, q3⟩
        have hz : ∀ z : K × V, cntT z (LMap.nil : LMap K V).data = 0 := fun z => rfl
        by_cases hxy : x = y
        · rw [if_pos hxy]
          refine Ok.ret ⟨by simp, h.set ex .nil (fun z => ?_)⟩
          rw [q2, q3, hz]; omega
        · rw [if_neg hxy]
          refine Ok.ret ⟨by simp, ⟨fun q hq => ?_, fun z => ?_⟩⟩
          · rcases List.mem_or_eq_of_mem_set hq with hq | hq
            · rcases List.mem_or_eq_of_mem_set hq with hq | hq
              · exact h.each q hq
              · rw [hq]; exact h.each src (List.mem_of_getElem? ey)
            · rw [hq]; exact .nil
          · have a1 := cntV_set z vs x src m ex
            have a2 := cntV_set z (vs.set x src) y LMap.nil src
              (by rw [List.getElem?_set_ne hxy]; exact ey)
            have := h.bal z
            rw [hz] at a2
            rw [q2, q3]; omega
  | clone x y =>
    unfold step
    dsimp only
    cases e : vs[y]? with
    | none => exact .inl rfl
    | some m =>
      refine Ok.bind (clone_ok hH hlim (h.each m (List.mem_of_getElem? e)) l) ?_
      rintro m1 l1 ⟨q1, q2, q3, q4⟩
      refine store_ok hH h x q1 (fun z => ?_)
      have := q4 z
      rw [q2, q3]; omega

theorem exec_ok (hH : HashNZ H) {lim : Nat} (hlim : lim < 2 ^ 62) (fuel : Nat → Nat) (d : V) :
    ∀ (ops : List (Op K V)) {vs : List (LMap K V)} {l : Ledger K V}, InvP H lim vs l → (∀ op ∈ ops, op.Sane) →
    Ok (exec fuel H lim d vs ops) l (fun vs' l' => vs'.length = vs.length ∧ InvP H lim vs' l') := by
  intro ops
  induction ops with
  | nil => intro vs l h _; exact Ok.ret ⟨rfl, h⟩
  | cons op ops ih =>
    intro vs l h hs
    unfold exec
    refine Ok.bind (step_ok hH hlim fuel d h op (hs op List.mem_cons_self)) ?_
    rintro vs' l' ⟨e, h'⟩
    refine Ok.mono (ih h' (fun o ho => hs o (List.mem_cons_of_mem _ ho))) ?_
    rintro a b ⟨e', h''⟩
    exact ⟨by omega, h''⟩

theorem destroyAll_ok (hH : HashNZ H) {lim : Nat} : ∀ (vs : List (LMap K V)) {l : Ledger K V}, InvP H lim vs l →
    Ok (destroyAll vs) l (fun _ l' => ∀ x, cnt x l'.dead = cnt x l'.made) := by
  intro vs
  induction vs with
  | nil => intro l h; exact Ok.ret (fun x => by have := h.bal x; simpa [cntV] using this)
  | cons m vs ih =>
    intro l h
    unfold destroyAll
    refine Ok.bind (destroy_ok hH (h.each m List.mem_cons_self).wf l) ?_
    rintro _ l' ⟨_, q2, q3⟩
    refine ih ⟨fun q hq => h.each q (List.mem_cons_of_mem _ hq), fun x => ?_⟩
    have a := h.bal x; have := q3 x
    rw [cntV_cons] at a
    rw [q2]; omega

theorem InvP.init {lim n : Nat} : InvP H lim (List.replicate n (LMap.nil : LMap K V)) {} := by
  refine ⟨fun m hm => by rw [List.eq_of_mem_replicate hm]; exact .nil, fun x => ?_⟩
  induction n with
  | zero => rfl
  | succ n ih => rw [List.replicate_succ, cntV_cons]; simpa [LMap.nil, cntT_nil] using ih

end Rpp.MapMem
