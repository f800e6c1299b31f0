import Verif.Proof.Mem
import Verif.Spec.Seq

/-! Client variables that own heap blocks: an invariant shared by the container proofs. -/

namespace Rpp
open Spec (upd)
variable {α V : Type _}

/-- What the world invariant needs to know about a container representation. -/
structure RepOk (ptr : V → Option Nat) (Rep : Heap α → V → List α → Prop) : Prop where
  lt : ∀ {h v l}, Rep h v l → ∀ j, ptr v = some j → j < h.next
  congr : ∀ {h h' v l}, Rep h v l → h.next ≤ h'.next →
    (∀ j, ptr v = some j → h'.blk j = h.blk j) → Rep h' v l

/-- Every variable represents its abstract value, no two variables share a block, and every block
belongs to a variable. -/
structure WInv (ptr : V → Option Nat) (Rep : Heap α → V → List α → Prop)
    (vars : Nat → V) (h : Heap α) (s : Nat → List α) : Prop where
  wf : h.WF
  rep : ∀ x, Rep h (vars x) (s x)
  disj : ∀ x y j, x ≠ y → ptr (vars x) = some j → ptr (vars y) ≠ some j
  owned : ∀ j, h.blk j ≠ none → ∃ x, ptr (vars x) = some j

@[simp] theorem upd_self {β : Type _} (f : Nat → β) (x : Nat) (b : β) : upd f x b x = b := by
  simp [upd]

theorem upd_ne {β : Type _} (f : Nat → β) {x y : Nat} (b : β) (h : y ≠ x) : upd f x b y = f y := by
  simp [upd, h]

variable {ptr : V → Option Nat} {Rep : Heap α → V → List α → Prop}

/-- An operation on one variable that respects `Frame` preserves the invariant. -/
theorem WInv.update (R : RepOk ptr Rep) {vars : Nat → V} {h h' : Heap α} {s : Nat → List α}
    (w : WInv ptr Rep vars h s) {x : Nat} {v' : V} {l' : List α}
    (r : Rep h' v' l') (f : Frame h (ptr (vars x)) h' (ptr v')) :
    WInv ptr Rep (upd vars x v') h' (upd s x l') := by
  have hlt := fun y => R.lt (w.rep y)
  -- the new block is none of the other variables'
  have hnew : ∀ y j, y ≠ x → ptr (vars y) = some j → ptr v' ≠ some j := by
    intro y j hy hj e
    rcases f.own with e' | ⟨e', _⟩
    · exact w.disj y x j hy hj (e' ▸ e)
    · have := hlt y j hj; have := e' j e; omega
  have hold : ∀ y j, y ≠ x → ptr (vars y) = some j → h'.blk j = h.blk j := by
    intro y j hy hj
    exact f.other j (fun e => w.disj y x j hy hj e) (hnew y j hy hj)
  refine ⟨f.wf w.wf (hlt x), ?_, ?_, ?_⟩
  · intro y
    by_cases hy : y = x
    · subst hy; simpa using r
    · rw [upd_ne _ _ hy, upd_ne _ _ hy]
      exact R.congr (w.rep y) f.next_le (fun j hj => hold y j hy hj)
  · intro y z j hyz hj
    by_cases hy : y = x
    · subst hy
      rw [upd_self] at hj
      rw [upd_ne _ _ (Ne.symm hyz)]
      intro e; exact hnew z j (Ne.symm hyz) e hj
    · rw [upd_ne _ _ hy] at hj
      by_cases hz : z = x
      · subst hz; rw [upd_self]; exact hnew y j hy hj
      · rw [upd_ne _ _ hz]; exact w.disj y z j hyz hj
  · intro j hj
    by_cases h1 : ptr v' = some j
    · exact ⟨x, by rw [upd_self, h1]⟩
    · by_cases h2 : ptr (vars x) = some j
      · rcases f.own with e | ⟨_, e⟩
        · exact absurd (e ▸ h2) h1
        · exact absurd (e j h2) hj
      · rw [f.other j h2 h1] at hj
        obtain ⟨y, hy⟩ := w.owned j hj
        refine ⟨y, ?_⟩
        rw [upd_ne]
        · exact hy
        · intro e; subst e; exact h2 hy

/-- Building a temporary, then destroying the target: together a `Frame` step. -/
theorem Frame.assign {h h1 h2 : Heap α} {p t : Option Nat} (a : Frame h none h1 t)
    (b : Frame h1 p h2 none) (hw : h.WF) (hp : ∀ j, p = some j → j < h.next)
    : Frame h p h2 t := by
  have hfresh : ∀ j, t = some j → h.next ≤ j ∧ j < h1.next := by
    intro j hj
    rcases a.own with e | ⟨e, _⟩
    · rw [e] at hj; simp at hj
    · exact e j hj
  have hpn : ∀ j, p = some j → h2.blk j = none := by
    intro j hj
    rcases b.own with e | ⟨_, e⟩
    · rw [← e] at hj; simp at hj
    · exact e j hj
  refine ⟨Nat.le_trans a.next_le b.next_le, b.lim_eq.trans a.lim_eq, ?_, Or.inr ⟨?_, hpn⟩⟩
  · intro j h1 h2
    rw [b.other j h1 (by simp), a.other j (by simp) h2]
  · intro j hj
    have := hfresh j hj; have := b.next_le; omega

/-- Assigning a freshly built temporary to a variable. -/
theorem WInv.assign (R : RepOk ptr Rep) {vars : Nat → V} {h h1 h2 : Heap α} {s : Nat → List α}
    (w : WInv ptr Rep vars h s) {x : Nat} {t : V} {l : List α}
    (r : Rep h1 t l) (a : Frame h none h1 (ptr t)) (b : Frame h1 (ptr (vars x)) h2 none) :
    WInv ptr Rep (upd vars x t) h2 (upd s x l) := by
  refine w.update R ?_ (a.assign b w.wf (R.lt (w.rep x)))
  refine R.congr r b.next_le ?_
  intro j hj
  refine b.other j ?_ (by simp)
  intro e
  have h1 := R.lt (w.rep x) j e
  rcases a.own with e' | ⟨e', _⟩
  · rw [e'] at hj; simp at hj
  · have := e' j hj; omega

/-- Move-assignment between different variables, the target's old contents having been destroyed. -/
theorem WInv.move (R : RepOk ptr Rep) {vars : Nat → V} {h h' : Heap α} {s : Nat → List α}
    (w : WInv ptr Rep vars h s) {x y : Nat} (hxy : x ≠ y) {nil : V} (hnil : ptr nil = none)
    (rnil : ∀ h, Rep h nil []) (f : Frame h (ptr (vars x)) h' none) :
    WInv ptr Rep (upd (upd vars x (vars y)) y nil) h' (upd (upd s x (s y)) y []) := by
  have w1 : WInv ptr Rep (upd vars x nil) h' (upd s x []) :=
    w.update R (rnil h') (by rw [hnil]; exact f)
  have hx : ∀ z, upd (upd vars x (vars y)) y nil z =
      if z = y then nil else if z = x then vars y else vars z := fun z => rfl
  have vy : (upd vars x nil) y = vars y := upd_ne _ _ (Ne.symm hxy)
  refine ⟨w1.wf, ?_, ?_, ?_⟩
  · intro z
    by_cases hz : z = y
    · subst hz; simpa using rnil h'
    · rw [upd_ne _ _ hz, upd_ne _ _ hz]
      by_cases hzx : z = x
      · subst hzx; simp only [upd_self]
        have := w1.rep y
        rwa [upd_ne _ _ (Ne.symm hxy), upd_ne _ _ (Ne.symm hxy)] at this
      · rw [upd_ne _ _ hzx, upd_ne _ _ hzx]
        have := w1.rep z
        rwa [upd_ne _ _ hzx, upd_ne _ _ hzx] at this
  · intro a b j hab ha
    rw [hx] at ha ⊢
    by_cases ay : a = y
    · simp [ay, hnil] at ha
    · rw [if_neg ay] at ha
      by_cases hby : b = y
      · simp [hby, hnil]
      · rw [if_neg hby]
        by_cases ax : a = x
        · rw [if_pos ax] at ha
          have hbx : b ≠ x := fun e => hab (ax.trans e.symm)
          rw [if_neg hbx]
          exact w.disj y b j (Ne.symm hby) ha
        · rw [if_neg ax] at ha
          by_cases hbx : b = x
          · rw [if_pos hbx]; exact w.disj a y j ay ha
          · rw [if_neg hbx]; exact w.disj a b j hab ha
  · intro j hj
    obtain ⟨z, hz⟩ := w1.owned j hj
    by_cases hzx : z = x
    · subst hzx; simp [hnil] at hz
    · rw [upd_ne _ _ hzx] at hz
      by_cases hzy : z = y
      · subst hzy; exact ⟨x, by rw [hx, if_neg hxy, if_pos rfl, hz]⟩
      · exact ⟨z, by rw [hx, if_neg hzy, if_neg hzx, hz]⟩

end Rpp
