import Verif.Spec.VecRep
import Verif.Model.Mem

/-! Reasoning about memory-accessing code: a weakest-precondition reading of `M`. -/

namespace Rpp
variable {α : Type _} {β γ : Type _}

/-- `wp O m h Q`: run from `h`, `m` either returns normally with `Q`, or fails for lack of memory and
then `O` holds. All other outcomes are excluded. -/
def wp (O : Prop) (m : M α β) (h : Heap α) (Q : β → Heap α → Prop) : Prop :=
  match m h with
  | .ok (b, h') => Q b h'
  | .error e => e = .oom ∧ O

theorem wp_pure {O : Prop} (b : β) (h : Heap α) (Q : β → Heap α → Prop) :
    wp O (pure b) h Q ↔ Q b h := Iff.rfl

theorem wp_bind {O : Prop} (m : M α β) (f : β → M α γ) (h : Heap α) (Q : γ → Heap α → Prop) :
    wp O (m >>= f) h Q ↔ wp O m h (fun b h' => wp O (f b) h' Q) := by
  simp only [wp, bind, StateT.bind, Except.bind]
  cases hm : m h with
  | error e => simp
  | ok p => cases p; simp

theorem wp_mono {O O' : Prop} {m : M α β} {h : Heap α} {Q Q' : β → Heap α → Prop}
    (hw : wp O m h Q) (hO : O → O') (hQ : ∀ b h', Q b h' → Q' b h') : wp O' m h Q' := by
  simp only [wp] at *
  cases hm : m h with
  | error e => rw [hm] at hw; exact ⟨hw.1, hO hw.2⟩
  | ok p => rw [hm] at hw; exact hQ _ _ hw

theorem wp_require {O : Prop} (c : Bool) (h : Heap α) (Q : Unit → Heap α → Prop) (hc : c = true)
    (hq : Q () h) : wp O (require c) h Q := by
  simp only [wp, require, hc, if_true]; exact hq

theorem wp_ok {O : Prop} {m : M α β} {h : Heap α} {Q : β → Heap α → Prop} {b : β} {h' : Heap α}
    (e : m h = .ok (b, h')) (q : Q b h') : wp O m h Q := by
  simp only [wp, e]; exact q

/-- The concrete content of `wp` when memory cannot run out. -/
theorem wp_elim {O : Prop} {m : M α β} {h : Heap α} {Q : β → Heap α → Prop}
    (hw : wp O m h Q) (hO : ¬ O) : ∃ b h', m h = .ok (b, h') ∧ Q b h' := by
  simp only [wp] at hw
  cases hm : m h with
  | error e => rw [hm] at hw; exact absurd hw.2 hO
  | ok p => rw [hm] at hw; exact ⟨p.1, p.2, rfl, hw⟩

@[simp] theorem put_blk_self (h : Heap α) (id : Nat) (b) : (h.put id b).blk id = b := by
  simp [Heap.put]

theorem put_blk_ne (h : Heap α) {id j : Nat} (b) (hj : j ≠ id) : (h.put id b).blk j = h.blk j := by
  simp [Heap.put, hj]

@[simp] theorem put_next (h : Heap α) (id : Nat) (b) : (h.put id b).next = h.next := rfl
@[simp] theorem put_lim (h : Heap α) (id : Nat) (b) : (h.put id b).lim = h.lim := rfl

theorem put_blk (h : Heap α) (id j : Nat) (b) :
    (h.put id b).blk j = if j = id then b else h.blk j := rfl

/-! ### Primitive operations -/

theorem alloc_zero (h : Heap α) : alloc 0 h = .ok (none, h) := rfl

/-- Heap after a successful allocation of `n > 0` elements. -/
def afterAlloc (n : Nat) (h : Heap α) : Heap α :=
  { (h.put h.next (some (List.replicate n none))) with next := h.next + 1 }

@[simp] theorem afterAlloc_next (n : Nat) (h : Heap α) : (afterAlloc n h).next = h.next + 1 := rfl
@[simp] theorem afterAlloc_lim (n : Nat) (h : Heap α) : (afterAlloc n h).lim = h.lim := rfl
theorem afterAlloc_blk (n : Nat) (h : Heap α) (j : Nat) :
    (afterAlloc n h).blk j = if j = h.next then some (List.replicate n none) else h.blk j := rfl

theorem wp_alloc {O : Prop} {n : Nat} {h : Heap α} {Q : Option Nat → Heap α → Prop}
    (hn : 0 < n) (hO : h.lim < n → O) (hq : n ≤ h.lim → Q (some h.next) (afterAlloc n h)) :
    wp O (alloc n) h Q := by
  unfold wp alloc
  rw [if_neg (by omega)]
  by_cases hl : n > h.lim
  · rw [if_pos hl]; exact ⟨rfl, hO hl⟩
  · rw [if_neg hl]; exact hq (by omega)

theorem wp_readAt {O : Prop} {id i : Nat} {h : Heap α} {b : Buf α} {x : α}
    {Q : α → Heap α → Prop} (hb : h.blk id = some b) (hi : b[i]? = some (some x)) (hq : Q x h) :
    wp O (readAt (some id) i) h Q := by
  refine wp_ok (b := x) (h' := h) ?_ hq
  simp [readAt, hb, hi]

theorem wp_construct {O : Prop} {T : Traits} {id i : Nat} {h : Heap α} {b : Buf α} {x : α}
    {Q : Unit → Heap α → Prop} (hb : h.blk id = some b) (hi : i < b.length)
    (hr : T.triv = true ∨ b[i]? = some none)
    (hq : Q () (h.put id (some (b.set i (some x))))) :
    wp O (construct T (some id) i x) h Q := by
  refine wp_ok (b := ()) (h' := h.put id (some (b.set i (some x)))) ?_ hq
  have hsome : ∃ c, b[i]? = some c := ⟨b[i], by simp [hi]⟩
  obtain ⟨c, hc⟩ := hsome
  cases c with
  | none => simp [construct, hb, hc]
  | some y =>
    have ht : T.triv = true := by
      rcases hr with h1 | h1
      · exact h1
      · rw [hc] at h1; simp at h1
    simp [construct, hb, hc, ht]

theorem wp_destroy {O : Prop} {T : Traits} {id i : Nat} {h : Heap α} {b : Buf α} {x : α}
    {Q : Unit → Heap α → Prop} (ht : T.triv = false) (hb : h.blk id = some b)
    (hi : b[i]? = some (some x)) (hq : Q () (h.put id (some (b.set i none)))) :
    wp O (destroy T (some id) i) h Q := by
  refine wp_ok (b := ()) (h' := h.put id (some (b.set i none))) ?_ hq
  simp [destroy, ht, hb, hi]

theorem wp_moveOut {O : Prop} {T : Traits} {id i : Nat} {h : Heap α} {b : Buf α} {x : α}
    {Q : α → Heap α → Prop} (ht : T.triv = false) (hb : h.blk id = some b)
    (hi : b[i]? = some (some x)) (hq : Q x (h.put id (some (b.set i none)))) :
    wp O (moveOut T (some id) i) h Q := by
  refine wp_ok (b := x) (h' := h.put id (some (b.set i none))) ?_ hq
  simp [moveOut, ht, hb, hi]

theorem wp_assignAt {O : Prop} {id i : Nat} {h : Heap α} {b : Buf α} {x y : α}
    {Q : Unit → Heap α → Prop} (hb : h.blk id = some b)
    (hi : b[i]? = some (some y)) (hq : Q () (h.put id (some (b.set i (some x))))) :
    wp O (assignAt (some id) i x) h Q := by
  refine wp_ok (b := ()) (h' := h.put id (some (b.set i (some x)))) ?_ hq
  simp [assignAt, hb, hi]

theorem wp_free {O : Prop} {T : Traits} {id : Nat} {h : Heap α} {b : Buf α}
    {Q : Unit → Heap α → Prop} (hb : h.blk id = some b)
    (hr : T.triv = true ∨ ∀ c ∈ b, c = none) (hq : Q () (h.put id none)) :
    wp O (free T (some id)) h Q := by
  refine wp_ok (b := ()) (h' := h.put id none) ?_ hq
  have : (T.triv || b.all Option.isNone) = true := by
    rcases hr with h1 | h1
    · simp [h1]
    · simp only [Bool.or_eq_true, List.all_eq_true]
      right; intro c hc; rw [h1 c hc]; rfl
  simp only [free, hb, this, if_true]

theorem free_null {T : Traits} (h : Heap α) : free T none h = .ok ((), h) := rfl

theorem wp_memcpy {O : Prop} {d s di si n : Nat} {h : Heap α} {db sb : Buf α}
    {Q : Unit → Heap α → Prop} (hd : h.blk d = some db) (hs : h.blk s = some sb)
    (h1 : di + n ≤ db.length) (h2 : si + n ≤ sb.length)
    (hq : Q () (h.put d (some (db.take di ++ ((sb.drop si).take n) ++ db.drop (di + n)))))
    (hq0 : n = 0 → Q () h) :
    wp O (memcpy (some d) di (some s) si n) h Q := by
  by_cases hn : n = 0
  · refine wp_ok (b := ()) (h' := h) ?_ (hq0 hn)
    simp [memcpy, hn]
  · refine wp_ok (b := ()) ?_ hq
    simp [memcpy, hn, hd, hs, h1, h2]

/-! ### Heaps that agree away from given blocks -/

/-- `h'` is `h` except for the contents of the blocks in `ids`; blocks numbered from `h.next` on may
have been created. -/
def SameOff (ids : List Nat) (h h' : Heap α) : Prop :=
  h.next ≤ h'.next ∧ h'.lim = h.lim ∧ ∀ j, j ∉ ids → h'.blk j = h.blk j

theorem SameOff.refl (ids : List Nat) (h : Heap α) : SameOff ids h h :=
  ⟨Nat.le_refl _, rfl, fun _ _ => rfl⟩

theorem SameOff.trans {ids : List Nat} {h h' h'' : Heap α} (a : SameOff ids h h')
    (b : SameOff ids h' h'') : SameOff ids h h'' :=
  ⟨Nat.le_trans a.1 b.1, b.2.1.trans a.2.1, fun j hj => (b.2.2 j hj).trans (a.2.2 j hj)⟩

theorem SameOff.put {ids : List Nat} (h : Heap α) {id : Nat} (b) (hid : id ∈ ids) :
    SameOff ids h (h.put id b) :=
  ⟨Nat.le_refl _, rfl, fun j hj => put_blk_ne h b (fun e => hj (e ▸ hid))⟩

theorem SameOff.mono {ids ids' : List Nat} {h h' : Heap α} (a : SameOff ids h h')
    (hs : ∀ j ∈ ids, j ∈ ids') : SameOff ids' h h' :=
  ⟨a.1, a.2.1, fun j hj => a.2.2 j (fun hm => hj (hs j hm))⟩

/-- The blocks a (possibly null) pointer refers to. -/
def ptrIds (p : Option Nat) : List Nat := p.toList

/-- Effect of an operation on the heap when its object owned block `p` before and owns `p'` after:
other blocks are untouched, the block was kept or a fresh one replaced it and the old one was
released. -/
structure Frame (h : Heap α) (p : Option Nat) (h' : Heap α) (p' : Option Nat) : Prop where
  next_le : h.next ≤ h'.next
  lim_eq : h'.lim = h.lim
  other : ∀ j, p ≠ some j → p' ≠ some j → h'.blk j = h.blk j
  own : p' = p ∨ ((∀ j, p' = some j → h.next ≤ j ∧ j < h'.next) ∧ ∀ j, p = some j → h'.blk j = none)

theorem Frame.refl (h : Heap α) (p : Option Nat) : Frame h p h p :=
  ⟨Nat.le_refl _, rfl, fun _ _ _ => rfl, Or.inl rfl⟩

theorem Frame.put (h : Heap α) (id : Nat) (b) : Frame h (some id) (h.put id b) (some id) :=
  ⟨Nat.le_refl _, rfl, fun j hj _ => put_blk_ne h b (fun e => hj (by rw [e])), Or.inl rfl⟩

theorem Frame.trans {h h' h'' : Heap α} {p p' p'' : Option Nat} (a : Frame h p h' p')
    (b : Frame h' p' h'' p'') (hw : h.WF) (hp : ∀ j, p = some j → j < h.next) :
    Frame h p h'' p'' := by
  refine ⟨Nat.le_trans a.next_le b.next_le, b.lim_eq.trans a.lim_eq, ?_, ?_⟩
  · intro j hj hj''
    by_cases hj' : p' = some j
    · -- block `j` was created and released in between
      rcases a.own with e | ⟨e, _⟩
      · exact absurd (e ▸ hj') hj
      · rcases b.own with e' | ⟨_, e'⟩
        · exact absurd (e' ▸ hj') hj''
        · rw [e' j hj', hw j (e j hj').1]
    · rw [b.other j hj' hj'', a.other j hj hj']
  · rcases a.own with rfl | ⟨e1, e2⟩
    · rcases b.own with rfl | ⟨e3, e4⟩
      · exact Or.inl rfl
      · refine Or.inr ⟨fun j hj => ?_, e4⟩
        have := e3 j hj; have := a.next_le; omega
    · rcases b.own with rfl | ⟨e3, e4⟩
      · refine Or.inr ⟨fun j hj => ?_, fun j hj => ?_⟩
        · have := e1 j hj; have := b.next_le; omega
        · have hne : p'' ≠ some j := by
            intro e; have h1 := e1 j e; have h2 := hp j hj; omega
          rw [b.other j hne hne, e2 j hj]
      · refine Or.inr ⟨fun j hj => ?_, fun j hj => ?_⟩
        · have := e3 j hj; have := a.next_le; omega
        · have hne : p' ≠ some j := by
            intro e; have h1 := e1 j e; have h2 := hp j hj; omega
          have hne2 : p'' ≠ some j := by
            intro e; have h1 := e3 j e; have h2 := hp j hj; have := a.next_le; omega
          rw [b.other j hne hne2, e2 j hj]

theorem Frame.wf {h h' : Heap α} {p p' : Option Nat} (a : Frame h p h' p') (hw : h.WF)
    (hp : ∀ j, p = some j → j < h.next) : h'.WF := by
  intro j hj
  have h1 : p ≠ some j := by intro e; have := hp j e; have := a.next_le; omega
  have h2 : p' ≠ some j := by
    intro e
    rcases a.own with e' | ⟨e', _⟩
    · exact h1 (e' ▸ e)
    · have := e' j e; omega
  rw [a.other j h1 h2]
  exact hw j (Nat.le_trans a.next_le hj)

/-- The pointer held after an operation is below the block counter. -/
theorem Frame.lt {h h' : Heap α} {p p' : Option Nat} (a : Frame h p h' p')
    (hp : ∀ j, p = some j → j < h.next) : ∀ j, p' = some j → j < h'.next := by
  intro j hj
  rcases a.own with rfl | ⟨e, _⟩
  · exact Nat.lt_of_lt_of_le (hp j hj) a.next_le
  · exact (e j hj).2

end Rpp
