import Verif.Model.StrOwner

/-!
# Strings that own memory: the representation and the steps
-/

namespace Rpp.StrOwn
open Spec.Strs (Op Out set kill follow see known)

abbrev SSt := Spec.Strs.St
abbrev SView := Spec.Strs.View
abbrev Val := Spec.Strs.Val

theorem set_same {β : Type} (f : Nat → β) (x : Nat) (b : β) : set f x b x = b := by simp [Spec.Strs.set]

theorem set_other {β : Type} (f : Nat → β) {x y : Nat} (b : β) (h : y ≠ x) : set f x b y = f y := by simp [Spec.Strs.set, h]

theorem kill_hit {x : Nat} {f : Nat → SView} {v : Nat} (h : (f v).target = .var x) :
    kill x f v = { f v with target := .gone } := by simp [kill, h]

theorem kill_miss {x : Nat} {f : Nat → SView} {v : Nat} (h : (f v).target ≠ .var x) : kill x f v = f v := by simp [kill, h]

theorem follow_hit {y x : Nat} {f : Nat → SView} {v : Nat} (h : (f v).target = .var y) :
    follow y x f v = { f v with target := .var x } := by simp [follow, h]

theorem follow_miss {y x : Nat} {f : Nat → SView} {v : Nat} (h : (f v).target ≠ .var y) : follow y x f v = f v := by
  simp [follow, h]

/-- A variable and its value. -/
structure StrR (lim : Nat) (m : Mem) (t : Str) (v : Val) : Prop where
  len : t.len = v.len
  le : v.len ≤ v.buf.length
  cap : t.cap = v.buf.length
  lim : v.buf.length ≤ lim
  none : t.data = none → v.buf = []
  some : ∀ id, t.data = some id → m[id]? = some (some v.buf)
  pos : ∀ id, t.data = .some id → v.buf ≠ []

/-- A view and what it looks at. -/
def Looks (m : Mem) (vars : Nat → Str) (svars : Nat → Val) (p : Ptr) (w : SView) : Prop :=
  match w.target with
  | .gone => p = .null ∨ ∃ id, p = .heap id ∧ m[id]? = some none
  | .var x => p = (vars x).ptr ∧ w.off + w.len ≤ (svars x).buf.length
  | .lit b => p = .lit b ∧ w.off + w.len ≤ b.length

structure ViewR (m : Mem) (vars : Nat → Str) (svars : Nat → Val) (u : View) (w : SView) : Prop where
  off : u.off = w.off
  len : u.len = w.len
  small : w.len < 2 ^ 62
  looks : Looks m vars svars u.ptr w

/-- The whole state. -/
structure R (lim : Nat) (m : St) (s : SSt) : Prop where
  out : m.out = s.out
  str : ∀ x, StrR lim m.mem (m.vars x) (s.vars x)
  inj : ∀ x y id, (m.vars x).data = some id → (m.vars y).data = some id → x = y
  own : ∀ (id : Nat) b, m.mem[id]? = some (some b) → ∃ x, (m.vars x).data = some id
  view : ∀ v, ViewR m.mem m.vars s.vars (m.views v) (s.views v)

theorem ptr_heap {t : Str} {id : Nat} : t.ptr = .heap id ↔ t.data = some id := by
  obtain ⟨d, l, c⟩ := t
  cases d <;> simp [Str.ptr]

theorem ptr_null {t : Str} : t.ptr = .null ↔ t.data = none := by
  obtain ⟨d, l, c⟩ := t
  cases d <;> simp [Str.ptr]

theorem init_R (lim : Nat) : R lim init Spec.Strs.init := by
  refine ⟨rfl, fun x => ⟨rfl, Nat.le_refl _, rfl, Nat.zero_le _, fun _ => rfl, fun id h => (by cases h), fun id h => (by cases h)⟩, ?_, ?_, ?_⟩
  · intro x y id h
    cases h
  · intro id b h
    simp [init] at h
  · intro v
    exact ⟨rfl, rfl, Nat.two_pow_pos 62, .inl rfl⟩

/-- The pointer is to a block there is, or was. -/
def PtrOk (m : Mem) (p : Ptr) : Prop := ∀ id, p = .heap id → id < m.length

theorem lt_of_get {m : Mem} {id : Nat} {b} (h : m[id]? = some b) : id < m.length := by
  rw [List.getElem?_eq_some_iff] at h
  exact h.1

theorem StrR.ptrOk {lim m t v} (h : StrR lim m t v) : PtrOk m t.ptr := fun id e => lt_of_get (h.some id (ptr_heap.1 e))

theorem ViewR.ptrOk {lim : Nat} {m : St} {s : SSt} (h : R lim m s) {u w} (hv : ViewR m.mem m.vars s.vars u w) :
    PtrOk m.mem u.ptr := by
  intro id e
  have hl := hv.looks
  unfold Looks at hl
  split at hl
  · rcases hl with hl | ⟨j, hj, hm⟩
    · rw [hl] at e; cases e
    · rw [hj] at e; cases e
      exact lt_of_get hm
  · rw [hl.1] at e
    exact (h.str _).ptrOk id e
  · rw [hl.1] at e; cases e

/-! ### Reading -/

theorem load_str {lim m t v} (h : StrR lim m t v) (off n : Nat) (hle : off + n ≤ v.buf.length) :
    load m t.ptr off n = .ok ((v.buf.drop off).take n) := by
  unfold load
  split
  · rename_i h0
    rw [h0, List.take_zero]
  · obtain ⟨d, l, c⟩ := t
    cases d with
    | none =>
      have := h.none rfl
      rw [this] at hle
      simp at hle
      omega
    | some id =>
      simp only [Str.ptr]
      rw [h.some id rfl]
      simp only
      rw [if_pos hle]

theorem load_view {lim : Nat} {m : St} {s : SSt} (h : R lim m s) {p : Ptr} {w : SView}
    (hl : Looks m.mem m.vars s.vars p w) : load m.mem p w.off w.len = see s w := by
  unfold see
  by_cases h0 : w.len = 0
  · rw [if_pos h0]
    unfold load
    rw [if_pos h0]
  · rw [if_neg h0]
    unfold Looks at hl
    obtain ⟨t, off, len⟩ := w
    cases t with
    | gone =>
      simp only at hl
      rcases hl with rfl | ⟨id, rfl, hm⟩
      · simp [load, show len ≠ 0 from h0]
      · simp [load, show len ≠ 0 from h0, hm]
    | var x =>
      simp only at hl
      rw [hl.1, load_str (h.str x) _ _ hl.2]
    | lit b =>
      simp only at hl
      rw [hl.1]
      unfold load
      rw [if_neg h0]
      simp only
      rw [if_pos hl.2]

theorem load_length {m : Mem} {p : Ptr} {off n : Nat} {l} (h : load m p off n = .ok l) : l.length = n := by
  unfold load at h
  split at h
  · cases h
    simp_all
  · split at h
    · cases h
    · split at h
      · cases h
        rw [List.length_take, List.length_drop, List.length_map]
        omega
      · cases h
    · split at h
      · split at h
        · cases h
          rw [List.length_take, List.length_drop]
          omega
        · cases h
      · cases h

theorem values_known : ∀ l, values l = known l
  | [] => rfl
  | none :: l => by simp [values, known]
  | some b :: l => by
    rw [values, values_known l]
    unfold known
    by_cases h : l.all Option.isSome = true
    · rw [if_pos h, if_pos (by rw [List.all_cons, h]; rfl)]
      rfl
    · rw [if_neg h, if_neg (by rw [List.all_cons]; simpa using h)]

/-! ### Views -/

theorem R.setView {lim : Nat} {m : St} {s : SSt} (h : R lim m s) (v : Nat) {u w}
    (hv : ViewR m.mem m.vars s.vars u w) : R lim { m with views := set m.views v u } { s with views := set s.views v w } := by
  refine ⟨h.out, h.str, h.inj, h.own, fun v' => ?_⟩
  by_cases e : v' = v
  · subst e
    simp only [set_same]
    exact hv
  · simp only [set_other _ _ e]
    exact h.view v'

theorem R.setOut {lim : Nat} {m : St} {s : SSt} (h : R lim m s) (o : Out) :
    R lim { m with out := m.out ++ [o] } { s with out := s.out ++ [o] } :=
  ⟨by simp [h.out], h.str, h.inj, h.own, h.view⟩

/-! ### A variable gives up its block -/

theorem free_var {lim : Nat} {m : St} {s : SSt} (h : R lim m s) (x : Nat) :
    ∃ mem', free m.mem (m.vars x).data = .ok mem' ∧ mem'.length = m.mem.length ∧
      (∀ b, free (m.mem ++ [some b]) (m.vars x).data = .ok (mem' ++ [some b])) ∧
      R lim { m with mem := mem', vars := set m.vars x nil } { s with vars := set s.vars x ⟨[], 0⟩, views := kill x s.views } := by
  have hx := h.str x
  have hnil : ∀ mem', StrR lim mem' nil ⟨[], 0⟩ := fun mem' =>
    ⟨rfl, Nat.le_refl _, rfl, Nat.zero_le _, fun _ => rfl, fun id h => (by cases h), fun id h => (by cases h)⟩
  cases hd : (m.vars x).data with
  | none =>
    refine ⟨m.mem, rfl, rfl, fun _ => rfl, h.out, fun y => ?_, fun y z id hy hz => ?_, fun id b hb => ?_, fun v => ?_⟩
    · by_cases e : y = x
      · subst e; simp only [set_same]; exact hnil _
      · simp only [set_other _ _ e]; exact h.str y
    · by_cases e : y = x
      · subst e; simp only [set_same, nil] at hy; cases hy
      · by_cases e2 : z = x
        · subst e2; simp only [set_same, nil] at hz; cases hz
        · simp only [set_other _ _ e] at hy
          simp only [set_other _ _ e2] at hz
          exact h.inj y z id hy hz
    · obtain ⟨y, hy⟩ := h.own id b hb
      have e : y ≠ x := by rintro rfl; rw [hd] at hy; cases hy
      exact ⟨y, by simp only [set_other _ _ e]; exact hy⟩
    · have hv := h.view v
      have hl := hv.looks
      by_cases ht : (s.views v).target = .var x
      · simp only [kill_hit ht]
        refine ⟨hv.off, hv.len, hv.small, ?_⟩
        unfold Looks at hl ⊢
        rw [ht] at hl
        simp only at hl ⊢
        exact .inl (by rw [hl.1, ptr_null.2 hd])
      · simp only [kill_miss ht]
        refine ⟨hv.off, hv.len, hv.small, ?_⟩
        unfold Looks at hl ⊢
        split
        · rename_i hg; rw [hg] at hl; exact hl
        · rename_i y hg
          rw [hg] at hl
          have e : y ≠ x := by rintro rfl; exact ht hg
          simp only [set_other _ _ e]
          exact hl
        · rename_i b hg; rw [hg] at hl; exact hl
  | some id =>
    have hm := hx.some id hd
    have hlt := lt_of_get hm
    have other : ∀ y, y ≠ x → ∀ j, (m.vars y).data = some j → j ≠ id := by
      rintro y hy j hj rfl
      exact hy (h.inj y x j hj hd)
    refine ⟨m.mem.set id none, by simp [free, hm], by simp, fun b => ?_, h.out, fun y => ?_, fun y z j hy hz => ?_,
      fun j b hb => ?_, fun v => ?_⟩
    · simp only [free]
      rw [List.getElem?_append_left hlt, hm]
      simp only
      rw [List.set_append_left _ _ hlt]
    · by_cases e : y = x
      · subst e; simp only [set_same]; exact hnil _
      · simp only [set_other _ _ e]
        have hy := h.str y
        refine ⟨hy.len, hy.le, hy.cap, hy.lim, hy.none, fun j hj => ?_, hy.pos⟩
        rw [List.getElem?_set_ne (Ne.symm (other y e j hj))]
        exact hy.some j hj
    · by_cases e : y = x
      · subst e; simp only [set_same, nil] at hy; cases hy
      · by_cases e2 : z = x
        · subst e2; simp only [set_same, nil] at hz; cases hz
        · simp only [set_other _ _ e] at hy
          simp only [set_other _ _ e2] at hz
          exact h.inj y z j hy hz
    · have hj : j ≠ id := by
        rintro rfl
        simp [List.getElem?_set_self hlt] at hb
      simp only [] at hb
      rw [List.getElem?_set_ne (Ne.symm hj)] at hb
      obtain ⟨y, hy⟩ := h.own j b hb
      have e : y ≠ x := by
        rintro rfl
        rw [hd] at hy
        cases hy
        exact hj rfl
      exact ⟨y, by simp only [set_other _ _ e]; exact hy⟩
    · have hv := h.view v
      have hl := hv.looks
      by_cases ht : (s.views v).target = .var x
      · simp only [kill_hit ht]
        refine ⟨hv.off, hv.len, hv.small, ?_⟩
        unfold Looks at hl ⊢
        rw [ht] at hl
        simp only at hl ⊢
        refine .inr ⟨id, by rw [hl.1, ptr_heap.2 hd], ?_⟩
        rw [List.getElem?_set_self hlt]
      · simp only [kill_miss ht]
        refine ⟨hv.off, hv.len, hv.small, ?_⟩
        unfold Looks at hl ⊢
        split
        · rename_i hg
          rw [hg] at hl
          rcases hl with hl | ⟨j, hj, hn⟩
          · exact .inl hl
          · refine .inr ⟨j, hj, ?_⟩
            have : j ≠ id := by rintro rfl; rw [hm] at hn; cases hn
            rw [List.getElem?_set_ne (Ne.symm this)]
            exact hn
        · rename_i y hg
          rw [hg] at hl
          have e : y ≠ x := by rintro rfl; exact ht hg
          simp only [set_other _ _ e]
          exact hl
        · rename_i b hg; rw [hg] at hl; exact hl

theorem kill_target (x : Nat) (f : Nat → SView) (v : Nat) : (kill x f v).target ≠ .var x := by
  unfold kill
  split
  · simp
  · assumption

/-! ### A variable takes a new block -/

/-- The pointer and memory of a new block. -/
def newBlock (m : Mem) (b : List (Option Byte)) : Option Nat × Mem :=
  if b = [] then (none, m) else (some m.length, m ++ [some b])

theorem adopt {lim : Nat} {m : St} {s : SSt} (h : R lim m s) (x : Nat) (hd : (m.vars x).data = none)
    (ht : ∀ v, (s.views v).target ≠ .var x) (b : List (Option Byte)) (n : Nat) (hn : n ≤ b.length) (hb : b.length ≤ lim) :
    R lim { m with mem := (newBlock m.mem b).2, vars := set m.vars x ⟨(newBlock m.mem b).1, n, b.length⟩ }
      { s with vars := set s.vars x ⟨b, n⟩ } := by
  have hmono : ∀ (id : Nat) c, m.mem[id]? = some c → (newBlock m.mem b).2[id]? = some c := by
    intro id c hc
    unfold newBlock
    split
    · exact hc
    · rw [List.getElem?_append_left (lt_of_get hc)]
      exact hc
  have hnew : ∀ id, (newBlock m.mem b).1 = some id → id = m.mem.length ∧ (newBlock m.mem b).2[id]? = some (some b) := by
    intro id
    unfold newBlock
    split
    · intro h; cases h
    · intro h
      cases h
      exact ⟨rfl, by simp⟩
  have fresh : ∀ y id, (m.vars y).data = some id → id ≠ m.mem.length := fun y id hy =>
    Nat.ne_of_lt (lt_of_get ((h.str y).some id hy))
  refine ⟨h.out, fun y => ?_, fun y z id hy hz => ?_, fun id c hc => ?_, fun v => ?_⟩
  · by_cases e : y = x
    · subst e
      simp only [set_same]
      refine ⟨rfl, hn, rfl, hb, fun h0 => ?_, fun id hid => (hnew id hid).2, fun id hid => ?_⟩
      · unfold newBlock at h0
        split at h0
        · assumption
        · cases h0
      · unfold newBlock at hid
        split at hid
        · cases hid
        · assumption
    · simp only [set_other _ _ e]
      have hy := h.str y
      exact ⟨hy.len, hy.le, hy.cap, hy.lim, hy.none, fun id hid => hmono _ _ (hy.some id hid), hy.pos⟩
  · by_cases e : y = x
    · subst e
      by_cases e2 : z = y
      · exact e2.symm
      · simp only [set_same] at hy
        simp only [set_other _ _ e2] at hz
        exact absurd (hnew id hy).1 (fresh z id hz)
    · by_cases e2 : z = x
      · subst e2
        simp only [set_same] at hz
        simp only [set_other _ _ e] at hy
        exact absurd (hnew id hz).1 (fresh y id hy)
      · simp only [set_other _ _ e] at hy
        simp only [set_other _ _ e2] at hz
        exact h.inj y z id hy hz
  · simp only [] at hc
    by_cases hlt : id < m.mem.length
    · have : m.mem[id]? = some (some c) := by
        unfold newBlock at hc
        split at hc
        · exact hc
        · rwa [List.getElem?_append_left hlt] at hc
      obtain ⟨y, hy⟩ := h.own id c this
      have e : y ≠ x := by rintro rfl; rw [hd] at hy; cases hy
      exact ⟨y, by simp only [set_other _ _ e]; exact hy⟩
    · refine ⟨x, ?_⟩
      simp only [set_same]
      unfold newBlock at hc ⊢
      split at hc
      · exact absurd (lt_of_get hc) hlt
      · rename_i hne
        have := lt_of_get hc
        simp at this
        rw [if_neg hne]
        simp only
        congr 1
        omega
  · have hv := h.view v
    refine ⟨hv.off, hv.len, hv.small, ?_⟩
    have hl := hv.looks
    have htv := ht v
    unfold Looks at hl ⊢
    simp only
    split
    · rename_i hg
      rw [hg] at hl
      rcases hl with hl | ⟨j, hj, hn'⟩
      · exact .inl hl
      · exact .inr ⟨j, hj, hmono _ _ hn'⟩
    · rename_i y hg
      rw [hg] at hl
      have e : y ≠ x := by rintro rfl; exact htv hg
      simp only [set_other _ _ e]
      exact hl
    · rename_i c hg; rw [hg] at hl; exact hl

theorem set_set {β : Type} (f : Nat → β) (x : Nat) (a b : β) : set (set f x a) x b = set f x b := by
  funext y
  unfold Spec.Strs.set
  split <;> rfl

/-- `x = t` for a string just made with the bytes `b`. -/
theorem assign_new {lim : Nat} {m : St} {s : SSt} (h : R lim m s) (x : Nat) (b : List (Option Byte)) (n : Nat)
    (hn : n ≤ b.length) (hb : b.length ≤ lim) :
    ∃ m', assign { m with mem := (newBlock m.mem b).2 } x ⟨(newBlock m.mem b).1, n, b.length⟩ = .ok m' ∧
      R lim m' { s with vars := set s.vars x ⟨b, n⟩, views := kill x s.views } := by
  obtain ⟨mem', h1, h2, h3, h4⟩ := free_var h x
  have h5 := adopt h4 x (by simp [set_same, nil]) (kill_target x s.views) b n hn hb
  simp only [set_set] at h5
  have e : newBlock mem' b = ((newBlock m.mem b).1, (newBlock mem' b).2) := by
    unfold newBlock
    split
    · rfl
    · rw [h2]
  refine ⟨_, ?_, h5⟩
  unfold assign
  have hf : free (newBlock m.mem b).2 (m.vars x).data = .ok (newBlock mem' b).2 := by
    unfold newBlock
    split
    · exact h1
    · exact h3 b
  simp only [hf]
  rw [e]

/-- What the parts of the code that fill a new block do. -/
theorem alloc_eq (lim : Nat) (m : Mem) (n : Nat) :
    alloc lim m n = if n > lim then .error .oom else .ok (newBlock m (List.replicate n none)) := by
  unfold alloc newBlock
  split
  · rfl
  · by_cases h : n = 0
    · simp [h]
    · simp [h]

theorem load_new {m : Mem} {p : Ptr} (hp : PtrOk m p) (b : List (Option Byte)) (off n : Nat) :
    load (newBlock m b).2 p off n = load m p off n := by
  unfold newBlock
  split
  · rfl
  · unfold load
    split
    · rfl
    · cases p with
      | null => rfl
      | lit c => rfl
      | heap id =>
        simp only
        rw [List.getElem?_append_left (hp id rfl)]

theorem store_new (m : Mem) (b : List (Option Byte)) (off : Nat) (l : List (Option Byte)) (hl : off + l.length ≤ b.length) :
    store (newBlock m b).2 (newBlock m b).1 off l = .ok (newBlock m (b.take off ++ l ++ b.drop (off + l.length))).2 ∧
    (newBlock m (b.take off ++ l ++ b.drop (off + l.length))).1 = (newBlock m b).1 := by
  by_cases h0 : l.length = 0
  · have : l = [] := List.length_eq_zero_iff.1 h0
    subst this
    simp [store]
  · have hb : b ≠ [] := by rintro rfl; rw [List.length_nil] at hl; omega
    have hne : b.take off ++ l ++ b.drop (off + l.length) ≠ [] := by
      intro e
      simp only [List.append_eq_nil_iff] at e
      exact h0 (by rw [e.1.2]; rfl)
    unfold newBlock store
    rw [if_neg hb, if_neg h0, if_neg hne]
    simp [hl]

theorem memcpy_new {m : Mem} {p : Ptr} (hp : PtrOk m p) (b : List (Option Byte)) (doff soff n : Nat) (hn : doff + n ≤ b.length) :
    (∀ e, load m p soff n = .error e → memcpy (newBlock m b).2 (newBlock m b).1 doff p soff n = .error e) ∧
    (∀ l, load m p soff n = .ok l →
      memcpy (newBlock m b).2 (newBlock m b).1 doff p soff n = .ok (newBlock m (b.take doff ++ l ++ b.drop (doff + l.length))).2 ∧
      (newBlock m (b.take doff ++ l ++ b.drop (doff + l.length))).1 = (newBlock m b).1) := by
  have hno : ¬ (n ≠ 0 ∧ (∃ id, (newBlock m b).1 = some id ∧ p = .heap id) ∧ doff < soff + n ∧ soff < doff + n) := by
    rintro ⟨_, ⟨id, h1, h2⟩, _⟩
    have := hp id h2
    unfold newBlock at h1
    split at h1
    · cases h1
    · cases h1
      omega
  refine ⟨fun e he => ?_, fun l hl => ?_⟩
  · rw [memcpy, if_neg hno, load_new hp, he]
  · have hlen := load_length hl
    obtain ⟨h1, h2⟩ := store_new m b doff l (by omega)
    exact ⟨by rw [memcpy, if_neg hno, load_new hp, hl]; exact h1, h2⟩

/-! ### Moving, writing -/

theorem moved {lim : Nat} {m : St} {s : SSt} (h : R lim m s) {x y : Nat} (hxy : x ≠ y) (hd : (m.vars x).data = none)
    (ht : ∀ v, (s.views v).target ≠ .var x) :
    R lim { m with vars := set (set m.vars x (m.vars y)) y nil }
      { s with vars := set (set s.vars x (s.vars y)) y ⟨[], 0⟩, views := follow y x s.views } := by
  have hnil : StrR lim m.mem nil ⟨[], 0⟩ := ⟨rfl, Nat.le_refl _, rfl, Nat.zero_le _, fun _ => rfl, fun id h => (by cases h), fun id h => (by cases h)⟩
  have val : ∀ z, z ≠ y → set (set m.vars x (m.vars y)) y nil z = if z = x then m.vars y else m.vars z := by
    intro z hz
    rw [set_other _ _ hz]
    rfl
  have sval : ∀ z, z ≠ y → set (set s.vars x (s.vars y)) y ⟨[], 0⟩ z = if z = x then s.vars y else s.vars z := by
    intro z hz
    rw [set_other _ _ hz]
    rfl
  refine ⟨h.out, fun z => ?_, fun z w id hz hw => ?_, fun id b hb => ?_, fun v => ?_⟩
  · by_cases e : z = y
    · subst e; simp only [set_same]; exact hnil
    · simp only [val z e, sval z e]
      split
      · exact h.str y
      · exact h.str z
  · simp only [] at hz hw
    by_cases e : z = y
    · subst e; simp only [set_same, nil] at hz; cases hz
    · by_cases e2 : w = y
      · subst e2; simp only [set_same, nil] at hw; cases hw
      · rw [val z e] at hz
        rw [val w e2] at hw
        split at hz <;> split at hw
        · simp_all
        · exact absurd (h.inj _ _ _ hw hz) e2
        · exact absurd (h.inj _ _ _ hz hw) e
        · exact h.inj _ _ _ hz hw
  · obtain ⟨z, hz⟩ := h.own id b hb
    by_cases e : z = y
    · subst e
      exact ⟨x, by simp only [val x hxy, if_true]; exact hz⟩
    · have ex : z ≠ x := by rintro rfl; rw [hd] at hz; cases hz
      exact ⟨z, by simp only [val z e, if_neg ex]; exact hz⟩
  · have hv := h.view v
    have hl := hv.looks
    have htv := ht v
    by_cases hny : (s.views v).target = .var y
    · simp only [follow_hit hny]
      refine ⟨hv.off, hv.len, hv.small, ?_⟩
      unfold Looks at hl ⊢
      rw [hny] at hl
      simp only [val x hxy, sval x hxy, if_true] at hl ⊢
      exact hl
    · simp only [follow_miss hny]
      refine ⟨hv.off, hv.len, hv.small, ?_⟩
      unfold Looks at hl ⊢
      split
      · rename_i hg; rw [hg] at hl; exact hl
      · rename_i z hg
        rw [hg] at hl
        have e : z ≠ y := by rintro rfl; exact hny hg
        have ex : z ≠ x := by rintro rfl; exact htv hg
        simp only [val z e, sval z e, if_neg ex]
        exact hl
      · rename_i b hg; rw [hg] at hl; exact hl

/-- New bytes in the block of a variable. -/
theorem written {lim : Nat} {m : St} {s : SSt} (h : R lim m s) {x id : Nat} (hd : (m.vars x).data = some id)
    (b : List (Option Byte)) (hb : b.length = (s.vars x).buf.length) :
    R lim { m with mem := m.mem.set id (some b) } { s with vars := set s.vars x { s.vars x with buf := b } } := by
  have hx := h.str x
  have hm := hx.some id hd
  have hlt := lt_of_get hm
  refine ⟨h.out, fun y => ?_, h.inj, fun j c hc => ?_, fun v => ?_⟩
  · by_cases e : y = x
    · subst e
      simp only [set_same]
      refine ⟨hx.len, by simp only; rw [hb]; exact hx.le, by simp only; rw [hb]; exact hx.cap, by simp only; rw [hb]; exact hx.lim,
        fun h0 => ?_, fun j hj => ?_, fun j hj => ?_⟩
      · rw [hd] at h0; cases h0
      · rw [hd] at hj; cases hj
        rw [List.getElem?_set_self hlt]
      · have := hx.pos j hj
        rw [← List.length_pos_iff] at this ⊢
        simp only
        omega
    · simp only [set_other _ _ e]
      have hy := h.str y
      refine ⟨hy.len, hy.le, hy.cap, hy.lim, hy.none, fun j hj => ?_, hy.pos⟩
      have : j ≠ id := by rintro rfl; exact e (h.inj y x j hj hd)
      rw [List.getElem?_set_ne (Ne.symm this)]
      exact hy.some j hj
  · simp only [] at hc
    by_cases e : j = id
    · subst e; exact ⟨x, hd⟩
    · rw [List.getElem?_set_ne (Ne.symm e)] at hc
      exact h.own j c hc
  · have hv := h.view v
    refine ⟨hv.off, hv.len, hv.small, ?_⟩
    have hl := hv.looks
    unfold Looks at hl ⊢
    simp only
    split
    · rename_i hg
      rw [hg] at hl
      rcases hl with hl | ⟨j, hj, hn⟩
      · exact .inl hl
      · refine .inr ⟨j, hj, ?_⟩
        have : j ≠ id := by rintro rfl; rw [hm] at hn; cases hn
        rw [List.getElem?_set_ne (Ne.symm this)]
        exact hn
    · rename_i y hg
      rw [hg] at hl
      refine ⟨hl.1, ?_⟩
      by_cases e : y = x
      · subst e
        simp only [set_same, hb]
        exact hl.2
      · simp only [set_other _ _ e]
        exact hl.2
    · rename_i c hg; rw [hg] at hl; exact hl

theorem set_self {β : Type} (f : Nat → β) (x : Nat) : set f x (f x) = f := by
  funext y
  unfold Spec.Strs.set
  split
  · subst_vars; rfl
  · rfl

theorem store_var {lim : Nat} {m : St} {s : SSt} (h : R lim m s) (x i : Nat) (l : List (Option Byte))
    (hl : i + l.length ≤ (s.vars x).len) :
    ∃ mem', store m.mem (m.vars x).data i l = .ok mem' ∧ R lim { m with mem := mem' } (Spec.Strs.write s x i l) := by
  have hx := h.str x
  have hle := hx.le
  by_cases h0 : l.length = 0
  · have : l = [] := List.length_eq_zero_iff.1 h0
    subst this
    refine ⟨m.mem, rfl, ?_⟩
    unfold Spec.Strs.write
    simp only [List.append_nil, List.length_nil, Nat.add_zero, List.take_append_drop]
    rw [set_self]
    exact h
  · cases hd : (m.vars x).data with
    | none =>
      have := hx.none hd
      rw [this] at hle
      simp at hle
      omega
    | some id =>
      have hm := hx.some id hd
      refine ⟨m.mem.set id (some ((s.vars x).buf.take i ++ l ++ (s.vars x).buf.drop (i + l.length))), ?_, ?_⟩
      · unfold store
        rw [if_neg h0]
        simp only [hm]
        rw [if_pos (by omega)]
      · refine written h hd _ ?_
        simp only [List.length_append, List.length_take, List.length_drop]
        omega

/-! ### The operations -/

/-- The outcome of the code against that of the specification. -/
def Match (lim : Nat) (r : Res St) (t : Res SSt) : Prop :=
  match t with
  | .ok s => ∃ m, r = .ok m ∧ R lim m s
  | .error e => r = .error e

theorem wadd_small {a b : Nat} (h : a + b < 2 ^ 64) : wadd a b = a + b := Nat.mod_eq_of_lt h

theorem output_match {lim : Nat} {m : St} {s : SSt} (h : R lim m s) (r : Res (List (Option Byte))) :
    Match lim (output m r) (match r with
      | .error e => .error e
      | .ok b => match known b with
        | .error e => .error e
        | .ok l => .ok { s with out := s.out ++ [.bytes l] }) := by
  unfold output
  cases r with
  | error e => exact rfl
  | ok b =>
    simp only [values_known]
    cases known b with
    | error e => exact rfl
    | ok l => exact ⟨_, rfl, h.setOut _⟩

theorem copyOf_match {lim : Nat} {m : St} {s : SSt} (h : R lim m s) (x : Nat) {p : Ptr} (hp : PtrOk m.mem p) (off n k : Nat) :
    Match lim (into x (copyOf lim m p off n (n + k)))
      (if n + k > lim then .error .oom else match load m.mem p off n with
        | .error e => .error e
        | .ok a => Spec.Strs.assign lim s x ⟨a ++ List.replicate k none, n⟩) := by
  unfold copyOf
  rw [alloc_eq]
  by_cases hl : n + k > lim
  · rw [if_pos hl, if_pos hl]
    exact rfl
  · rw [if_neg hl, if_neg hl]
    simp only
    obtain ⟨h1, h2⟩ := memcpy_new hp (List.replicate (n + k) none) 0 off n (by simp)
    cases ha : load m.mem p off n with
    | error e =>
      rw [h1 e ha]
      exact rfl
    | ok a =>
      obtain ⟨g1, g2⟩ := h2 a ha
      have hlen := load_length ha
      rw [g1, ← g2]
      have e : (List.replicate (n + k) (none : Option Byte)).take 0 ++ a ++ (List.replicate (n + k) none).drop (0 + a.length) =
          a ++ List.replicate k none := by
        rw [List.take_zero, List.nil_append, List.drop_replicate]
        congr 2
        omega
      rw [e]
      have hbl : (a ++ List.replicate k (none : Option Byte)).length = n + k := by simp [hlen]
      obtain ⟨m', e1, e2⟩ := assign_new h x (a ++ List.replicate k none) n (by omega) (by omega)
      simp only [Spec.Strs.assign]
      rw [if_neg (by rw [hbl]; exact hl)]
      refine ⟨m', ?_, e2⟩
      rw [hbl] at e1
      exact e1

theorem append_match {lim : Nat} {m : St} {s : SSt} (h : R lim m s) (hlim : lim < 2 ^ 62) (x v w : Nat) :
    Match lim (step lim m (.append x v w)) (Spec.Strs.step lim s (.append x v w)) := by
  have hv := h.view v
  have hw := h.view w
  have pv := ViewR.ptrOk h hv
  have pw := ViewR.ptrOk h hw
  have lv := load_view h hv.looks
  have lw := load_view h hw.looks
  have sv := hv.small
  have sw := hw.small
  rw [← hv.off, ← hv.len] at lv
  rw [← hw.off, ← hw.len] at lw
  simp only [step, Spec.Strs.step, append, ← lv, ← lw, ← hv.len, ← hw.len]
  rw [← hv.len] at sv
  rw [← hw.len] at sw
  rw [wadd_small (by omega), alloc_eq]
  by_cases hl : (m.views v).len + (m.views w).len > lim
  · rw [if_pos hl, if_pos hl]
    exact rfl
  · rw [if_neg hl, if_neg hl]
    simp only [setLength, Nat.le_refl, if_true]
    obtain ⟨h1, h2⟩ := memcpy_new pv (List.replicate ((m.views v).len + (m.views w).len) none) 0 (m.views v).off (m.views v).len
      (by simp)
    cases ha : load m.mem (m.views v).ptr (m.views v).off (m.views v).len with
    | error e =>
      rw [h1 e ha]
      exact rfl
    | ok a =>
      obtain ⟨g1, g2⟩ := h2 a ha
      have hlen := load_length ha
      rw [g1, ← g2]
      have e : (List.replicate ((m.views v).len + (m.views w).len) (none : Option Byte)).take 0 ++ a ++
          (List.replicate ((m.views v).len + (m.views w).len) none).drop (0 + a.length) =
          a ++ List.replicate (m.views w).len none := by
        rw [List.take_zero, List.nil_append, List.drop_replicate]
        congr 2
        omega
      rw [e]
      simp only
      obtain ⟨k1, k2⟩ := memcpy_new pw (a ++ List.replicate (m.views w).len none) (m.views v).len (m.views w).off (m.views w).len
        (by simp [hlen])
      cases hb : load m.mem (m.views w).ptr (m.views w).off (m.views w).len with
      | error e =>
        rw [k1 e hb]
        exact rfl
      | ok b =>
        obtain ⟨j1, j2⟩ := k2 b hb
        have hblen := load_length hb
        rw [j1, ← j2]
        have e : (a ++ List.replicate (m.views w).len (none : Option Byte)).take (m.views v).len ++ b ++
            (a ++ List.replicate (m.views w).len none).drop ((m.views v).len + b.length) = a ++ b := by
          rw [List.take_left' hlen, List.drop_eq_nil_of_le (by simp [hlen, hblen]), List.append_nil]
        rw [e]
        have hbl : (a ++ b).length = (m.views v).len + (m.views w).len := by simp [hlen, hblen]
        obtain ⟨m', e1, e2⟩ := assign_new h x (a ++ b) (a ++ b).length (Nat.le_refl _) (by omega)
        simp only [Spec.Strs.assign]
        rw [if_neg (by omega)]
        refine ⟨m', ?_, e2⟩
        rw [hbl] at e1
        exact e1

theorem terminate_match {lim : Nat} {m : St} {s : SSt} (h : R lim m s) (hlim : lim < 2 ^ 62) (x v : Nat) :
    Match lim (step lim m (.terminate x v)) (Spec.Strs.step lim s (.terminate x v)) := by
  have hv := h.view v
  have pv := ViewR.ptrOk h hv
  have lv := load_view h hv.looks
  have sv := hv.small
  rw [← hv.off, ← hv.len] at lv
  simp only [step, Spec.Strs.step, terminate, ← lv, ← hv.len]
  rw [← hv.len] at sv
  rw [wadd_small (by omega), alloc_eq]
  by_cases hl : (m.views v).len + 1 > lim
  · rw [if_pos hl, if_pos hl]
    exact rfl
  · rw [if_neg hl, if_neg hl]
    simp only [setLength, Nat.le_refl, if_true]
    obtain ⟨h1, h2⟩ := memcpy_new pv (List.replicate ((m.views v).len + 1) none) 0 (m.views v).off (m.views v).len (by simp)
    cases ha : load m.mem (m.views v).ptr (m.views v).off (m.views v).len with
    | error e =>
      rw [h1 e ha]
      exact rfl
    | ok a =>
      obtain ⟨g1, g2⟩ := h2 a ha
      have hlen := load_length ha
      rw [g1, ← g2]
      have e : (List.replicate ((m.views v).len + 1) (none : Option Byte)).take 0 ++ a ++
          (List.replicate ((m.views v).len + 1) none).drop (0 + a.length) = a ++ [none] := by
        rw [List.take_zero, List.nil_append, List.drop_replicate, show (m.views v).len + 1 - (0 + a.length) = 1 by omega]
        rfl
      rw [e]
      simp only
      rw [if_pos (by omega)]
      obtain ⟨k1, k2⟩ := store_new m.mem (a ++ [none]) (m.views v).len [some 0#8] (by simp [hlen])
      rw [k1, ← k2]
      have e : (a ++ [(none : Option Byte)]).take (m.views v).len ++ [some 0#8] ++
          (a ++ [none]).drop ((m.views v).len + [some 0#8].length) = a ++ [some 0#8] := by
        rw [List.take_left' hlen, List.drop_eq_nil_of_le (by simp [hlen]), List.append_nil]
      rw [e]
      have hbl : (a ++ [some 0#8]).length = a.length + 1 := by simp
      obtain ⟨m', e1, e2⟩ := assign_new h x (a ++ [some 0#8]) (a.length + 1) (by omega) (by omega)
      simp only [Spec.Strs.assign]
      rw [if_neg (by omega)]
      refine ⟨m', ?_, e2⟩
      rw [hbl, hlen] at e1
      exact e1

theorem write_match {lim : Nat} {m : St} {s : SSt} (h : R lim m s) (x i : Nat) (p : Ptr) (off n : Nat) (hi : i + n < 2 ^ 64)
    (hno : ¬ (n ≠ 0 ∧ (∃ id, (m.vars x).data = some id ∧ p = .heap id) ∧ i < off + n ∧ off < i + n)) :
    Match lim (write m x i p off n)
      (if i + n ≤ (s.vars x).len then match load m.mem p off n with
        | .error e => .error e
        | .ok b => .ok (Spec.Strs.write s x i b)
      else .error .die) := by
  unfold write
  rw [wadd_small hi, (h.str x).len]
  by_cases hl : i + n ≤ (s.vars x).len
  · rw [if_pos hl, if_pos hl]
    have : memcpy m.mem (m.vars x).data i p off n = match load m.mem p off n with
        | .error e => .error e
        | .ok l => store m.mem (m.vars x).data i l := by
      unfold memcpy
      rw [if_neg hno]
      cases load m.mem p off n <;> rfl
    rw [this]
    cases ha : load m.mem p off n with
    | error e => exact rfl
    | ok a =>
      have := load_length ha
      obtain ⟨mem', e1, e2⟩ := store_var h x i a (by omega)
      simp only [e1]
      exact ⟨_, rfl, e2⟩
  · rw [if_neg hl, if_neg hl]
    exact rfl

theorem step_match {lim : Nat} (hlim : lim < 2 ^ 62) {m : St} {s : SSt} (h : R lim m s) (o : Op) (hs : Spec.Strs.Small o)
    (ho : ¬ Spec.Strs.Overlap s o) : Match lim (step lim m o) (Spec.Strs.step lim s o) := by
  cases o with
  | fresh x n =>
    simp only [step, Spec.Strs.step, Spec.Strs.assign, alloc_eq, List.length_replicate]
    by_cases hl : n > lim
    · rw [if_pos hl, if_pos hl]
      exact rfl
    · rw [if_neg hl, if_neg hl]
      obtain ⟨m', e1, e2⟩ := assign_new h x (List.replicate n none) 0 (Nat.zero_le _) (by simp; omega)
      rw [List.length_replicate] at e1
      exact ⟨m', e1, e2⟩
  | lit v b => exact ⟨_, rfl, h.setView v ⟨rfl, rfl, hs, rfl, by simp⟩⟩
  | clone x y =>
    have hy := h.str y
    have hle := hy.le
    have := copyOf_match h x hy.ptrOk 0 (m.vars y).len ((s.vars y).buf.length - (s.vars y).len)
    rw [load_str hy 0 (m.vars y).len (by rw [hy.len]; omega), List.drop_zero, hy.len,
      show (s.vars y).len + ((s.vars y).buf.length - (s.vars y).len) = (s.vars y).buf.length by omega, ← hy.cap] at this
    simp only [step, Spec.Strs.step]
    rw [hy.len]
    have hlm := hy.lim
    rw [if_neg (by rw [hy.cap]; omega)] at this
    simp only [hy.cap] at this ⊢
    exact this
  | move x y =>
    simp only [step, Spec.Strs.step, moveAssign]
    obtain ⟨mem', h1, _, _, h4⟩ := free_var h x
    simp only [h1]
    by_cases e : x = y
    · subst e
      simp only [if_true, set_same, set_set]
      exact ⟨_, rfl, h4⟩
    · rw [if_neg e]
      have := moved h4 e (by simp [set_same, nil]) (kill_target x s.views)
      simp only [set_set, set_other _ _ (Ne.symm e)] at this ⊢
      exact ⟨_, rfl, this⟩
  | drop x =>
    simp only [step, Spec.Strs.step, assign]
    obtain ⟨mem', h1, _, _, h4⟩ := free_var h x
    simp only [h1]
    exact ⟨_, rfl, h4⟩
  | setLen x n =>
    simp only [step, Spec.Strs.step, setLength]
    have hx := h.str x
    rw [hx.cap]
    by_cases hl : n ≤ (s.vars x).buf.length
    · rw [if_pos hl, if_pos hl]
      refine ⟨_, rfl, h.out, fun y => ?_, fun y z id hy hz => ?_, fun id b hb => ?_, fun v => ?_⟩
      · by_cases e : y = x
        · subst e
          simp only [set_same]
          exact ⟨rfl, hl, rfl, hx.lim, hx.none, hx.some, hx.pos⟩
        · simp only [set_other _ _ e]; exact h.str y
      · have aux : ∀ y, (set m.vars x ⟨(m.vars x).data, n, (s.vars x).buf.length⟩ y).data = (m.vars y).data := by
          intro y
          by_cases e : y = x
          · subst e; simp only [set_same]
          · simp only [set_other _ _ e]
        exact h.inj y z id ((aux y).symm.trans hy) ((aux z).symm.trans hz)
      · obtain ⟨y, hy⟩ := h.own id b hb
        refine ⟨y, ?_⟩
        by_cases e : y = x
        · subst e; simp only [set_same]; exact hy
        · simp only [set_other _ _ e]; exact hy
      · have hv := h.view v
        refine ⟨hv.off, hv.len, hv.small, ?_⟩
        have hk := hv.looks
        unfold Looks at hk ⊢
        simp only
        split
        · rename_i hg; rw [hg] at hk; exact hk
        · rename_i y hg
          rw [hg] at hk
          by_cases e : y = x
          · subst e; simp only [set_same]; exact hk
          · simp only [set_other _ _ e]; exact hk
        · rename_i hg; rw [hg] at hk; exact hk
    · rw [if_neg hl, if_neg hl]
      exact rfl
  | put x i b =>
    simp only [step, Spec.Strs.step]
    rw [(h.str x).len]
    by_cases hl : i < (s.vars x).len
    · rw [if_pos hl, if_pos hl]
      obtain ⟨mem', e1, e2⟩ := store_var h x i [some b] (by simp; omega)
      simp only [e1]
      exact ⟨_, rfl, e2⟩
    · rw [if_neg hl, if_neg hl]
      exact rfl
  | get x i =>
    simp only [step, Spec.Strs.step]
    have hx := h.str x
    have := hx.le
    rw [hx.len]
    by_cases hl : i < (s.vars x).len
    · rw [if_pos hl, if_pos hl, load_str hx i 1 (by omega)]
      exact output_match h (.ok _)
    · rw [if_neg hl, if_neg hl]
      exact rfl
  | length x =>
    simp only [step, Spec.Strs.step]
    rw [(h.str x).len]
    exact ⟨_, rfl, h.setOut _⟩
  | writeView x i v =>
    simp only [step, Spec.Strs.step]
    have hv := h.view v
    have lv := load_view h hv.looks
    have sv := hv.small
    rw [← hv.off, ← hv.len] at lv
    rw [← lv, ← hv.len]
    simp only [Spec.Strs.Small] at hs
    refine write_match h x i _ _ _ (by rw [hv.len]; omega) ?_
    rintro ⟨h1, ⟨id, hd, h2⟩, h3, h4⟩
    refine ho ?_
    simp only [Spec.Strs.Overlap, ← hv.len, ← hv.off]
    refine ⟨?_, h1, h3, h4⟩
    have hl := hv.looks
    unfold Looks at hl
    rw [h2] at hl
    split at hl
    · exfalso
      rcases hl with hl | ⟨j, hj, hn⟩
      · cases hl
      · cases hj
        rw [(h.str x).some id hd] at hn
        cases hn
    · rename_i y hg
      rw [hg, h.inj y x id (ptr_heap.1 hl.1.symm) hd]
    · cases hl.1
  | writeStr x i y =>
    simp only [step, Spec.Strs.step]
    have hy := h.str y
    have hle := hy.le
    have hlm := hy.lim
    simp only [Spec.Strs.Small] at hs
    have ly := load_str hy 0 (m.vars y).len (by rw [hy.len]; omega)
    have := write_match h x i (m.vars y).ptr 0 (m.vars y).len (by rw [hy.len]; omega) (by
      rintro ⟨h1, ⟨id, hd, h2⟩, _⟩
      rw [hy.len] at h1
      have e := h.inj y x id (ptr_heap.1 h2) hd
      subst e
      exact ho ⟨rfl, h1⟩)
    rw [ly, List.drop_zero] at this
    simp only [hy.len] at this ⊢
    exact this
  | view v x =>
    have hx := h.str x
    have hle := hx.le
    have hlm := hx.lim
    refine ⟨_, rfl, h.setView v ⟨rfl, hx.len, by simp only; omega, rfl, by simp only; omega⟩⟩
  | subStr v x a b =>
    simp only [step, Spec.Strs.step]
    have hx := h.str x
    have hle := hx.le
    have hlm := hx.lim
    rw [hx.len]
    by_cases h1 : a ≤ b
    · rw [if_pos h1]
      by_cases h2 : b ≤ (s.vars x).len
      · rw [if_pos h2, if_pos ⟨h1, h2⟩]
        exact ⟨_, rfl, h.setView v ⟨rfl, rfl, by simp only; omega, rfl, by simp only; omega⟩⟩
      · rw [if_neg h2, if_neg (by omega)]
        exact rfl
    · rw [if_neg h1, if_neg (by omega)]
      exact rfl
  | sub v w a b =>
    simp only [step, Spec.Strs.step]
    have hw := h.view w
    have hsm := hw.small
    rw [hw.len, hw.off]
    by_cases h1 : a ≤ b
    · rw [if_pos h1]
      by_cases h2 : b ≤ (s.views w).len
      · rw [if_pos h2, if_pos ⟨h1, h2⟩]
        refine ⟨_, rfl, h.setView v ⟨rfl, rfl, by simp only; omega, ?_⟩⟩
        have hl := hw.looks
        unfold Looks at hl ⊢
        simp only
        split
        · rename_i hg; rw [hg] at hl; exact hl
        · rename_i hg; rw [hg] at hl; exact ⟨hl.1, by have := hl.2; omega⟩
        · rename_i hg; rw [hg] at hl; exact ⟨hl.1, by have := hl.2; omega⟩
      · rw [if_neg h2, if_neg (by omega)]
        exact rfl
    · rw [if_neg h1, if_neg (by omega)]
      exact rfl
  | viewGet v i =>
    simp only [step, Spec.Strs.step]
    have hv := h.view v
    rw [hv.len, hv.off]
    by_cases hl : i < (s.views v).len
    · rw [if_pos hl, if_pos hl]
      have : load m.mem (m.views v).ptr ((s.views v).off + i) 1 = see s ⟨(s.views v).target, (s.views v).off + i, 1⟩ := by
        refine load_view h (w := ⟨(s.views v).target, (s.views v).off + i, 1⟩) ?_
        have hl := hv.looks
        unfold Looks at hl ⊢
        simp only
        split
        · rename_i hg; rw [hg] at hl; exact hl
        · rename_i hg; rw [hg] at hl; exact ⟨hl.1, by have := hl.2; omega⟩
        · rename_i hg; rw [hg] at hl; exact ⟨hl.1, by have := hl.2; omega⟩
      rw [this]
      exact output_match h _
    · rw [if_neg hl, if_neg hl]
      exact rfl
  | bytes v =>
    simp only [step, Spec.Strs.step]
    have hv := h.view v
    rw [hv.len, hv.off, load_view h hv.looks]
    exact output_match h _
  | append x v w => exact append_match h hlim x v w
  | terminate x v => exact terminate_match h hlim x v
  | string x v =>
    have hv := h.view v
    have lv := load_view h hv.looks
    have := copyOf_match h x (ViewR.ptrOk h hv) (m.views v).off (m.views v).len 0
    rw [← hv.off, ← hv.len] at lv
    rw [lv] at this
    simp only [step, Spec.Strs.step]
    rw [← hv.len]
    simp only [Nat.add_zero, List.replicate_zero, List.append_nil] at this
    cases ha : see s (s.views v) with
    | error e =>
      rw [ha] at this
      exact this
    | ok a =>
      rw [ha] at this lv
      have := load_length lv
      subst_vars
      simp_all

theorem run_match {lim : Nat} (hlim : lim < 2 ^ 62) : ∀ (os : List Op) {m : St} {s : SSt}, R lim m s →
    (∀ o ∈ os, Spec.Strs.Small o) →
    (∀ as o bs t, os = as ++ o :: bs → Spec.Strs.run lim s as = .ok t → ¬ Spec.Strs.Overlap t o) →
    Match lim (run lim m os) (Spec.Strs.run lim s os)
  | [], m, s, h, _, _ => ⟨m, rfl, h⟩
  | o :: os, m, s, h, hs, ho => by
    have h1 := step_match hlim h o (hs o (by simp)) (ho [] o os s rfl rfl)
    rw [run, Spec.Strs.run]
    unfold Match at h1
    cases ht : Spec.Strs.step lim s o with
    | error e =>
      rw [ht] at h1
      rw [h1]
      exact rfl
    | ok t =>
      rw [ht] at h1
      obtain ⟨m', e, h'⟩ := h1
      rw [e]
      refine run_match hlim os h' (fun o ho => hs o (by simp [ho])) fun as o' bs u e1 e2 => ?_
      refine ho (o :: as) o' bs u (by rw [e1]; rfl) ?_
      rw [Spec.Strs.run, ht]
      exact e2

theorem run_append {lim : Nat} {m m' : St} {as bs : List Op} (h : run lim m as = .ok m') :
    run lim m (as ++ bs) = run lim m' bs := by
  induction as generalizing m with
  | nil => cases h; rfl
  | cons a as ih =>
    rw [run] at h
    rw [List.cons_append, run]
    split at h
    · cases h
    · exact ih h

/-- An overlapping write. -/
theorem overlap_ub {lim : Nat} {m : St} {s s' : SSt} (h : R lim m s) (o : Op) (hs : Spec.Strs.Small o) (hlim : lim < 2 ^ 62)
    (ho : Spec.Strs.Overlap s o) (hok : Spec.Strs.step lim s o = .ok s') : step lim m o = .error .ub := by
  cases o with
  | writeView x i v =>
    obtain ⟨h1, h2, h3, h4⟩ := ho
    have hv := h.view v
    have hl := hv.looks
    have hsm := hv.small
    unfold Looks at hl
    rw [h1] at hl
    simp only [Spec.Strs.Small] at hs
    simp only [Spec.Strs.step] at hok
    split at hok
    · rename_i hfit
      simp only [step, write]
      rw [hv.len, hv.off, wadd_small (by omega), (h.str x).len, if_pos hfit]
      cases hd : (m.vars x).data with
      | none =>
        have := (h.str x).none hd
        simp only at hl
        rw [this] at hl
        simp at hl
        omega
      | some id =>
        simp only at hl
        unfold memcpy
        rw [if_pos ⟨h2, ⟨id, rfl, by rw [hl.1, ptr_heap.2 hd]⟩, h3, h4⟩]
    · cases hok
  | writeStr x i y =>
    obtain ⟨rfl, h2⟩ := ho
    have hx := h.str x
    have hle := hx.le
    have hlm := hx.lim
    simp only [Spec.Strs.Small] at hs
    simp only [Spec.Strs.step] at hok
    split at hok
    · rename_i hfit
      simp only [step, write]
      rw [hx.len, wadd_small (by omega), if_pos hfit]
      cases hd : (m.vars x).data with
      | none =>
        have := hx.none hd
        rw [this] at hle
        simp at hle
        exact absurd hle h2
      | some id =>
        unfold memcpy
        rw [if_pos ⟨h2, ⟨id, rfl, ptr_heap.2 hd⟩, by omega, by omega⟩]
    · cases hok
  | _ => exact absurd ho (by simp [Spec.Strs.Overlap])

end Rpp.StrOwn
