import Verif.Proof.VecWorld
import Verif.Proof.QWorld
import Verif.Model.Heap
import Verif.Spec.Reserve
import Verif.Proof.MapRun

/-! Room reserved ahead: what the operations do to the block and the capacity. -/

namespace Rpp
open Spec (VecOp Out upd vecStep vecRun vecDemand Vars Stays)
variable {α : Type}

theorem M.bind_inv {β γ : Type} {x : M α β} {f : β → M α γ} {h : Heap α} {r : γ × Heap α} (e : (x >>= f) h = .ok r) :
    ∃ a h', x h = .ok (a, h') ∧ f a h' = .ok r := by
  simp only [bind, StateT.bind, Except.bind] at e
  cases hx : x h with
  | error _ => rw [hx] at e; cases e
  | ok p => rw [hx] at e; exact ⟨p.1, p.2, rfl, e⟩

theorem M.pure_inv {β : Type} {a : β} {h : Heap α} {r : β × Heap α} (e : (pure a : M α β) h = .ok r) : r = (a, h) := by
  simp only [pure, StateT.pure, Except.pure] at e
  cases e; rfl

namespace Vec

theorem reserve_inv {T : Traits} {v v' : Vec} {n : Nat} {h h' : Heap α} (e : reserve T v n h = .ok (v', h')) :
    v'.cap = max v.cap n ∧ v'.len = v.len ∧ (n ≤ v.cap → v' = v) := by
  unfold reserve at e
  by_cases hn : n ≤ v.cap
  · rw [if_pos hn] at e
    cases M.pure_inv e
    exact ⟨by omega, rfl, fun _ => rfl⟩
  · rw [if_neg hn] at e
    obtain ⟨_, _, _, e⟩ := M.bind_inv e
    obtain ⟨_, _, _, e⟩ := M.bind_inv e
    obtain ⟨_, _, _, e⟩ := M.bind_inv e
    cases M.pure_inv e
    exact ⟨by show n = _; omega, rfl, fun h => absurd h hn⟩

theorem push_inv {T : Traits} {v v' : Vec} {a : α} {h h' : Heap α} (hc : v.len < v.cap) (e : push T v a h = .ok (v', h')) :
    v'.data = v.data ∧ v'.cap = v.cap := by
  unfold push at e
  obtain ⟨_, _, e1, e⟩ := M.bind_inv e
  rw [if_neg (by omega)] at e1
  cases M.pure_inv e1
  obtain ⟨_, _, _, e⟩ := M.bind_inv e
  obtain ⟨_, _, _, e⟩ := M.bind_inv e
  cases M.pure_inv e
  exact ⟨rfl, rfl⟩

theorem pushOwn_inv {T : Traits} {v v' : Vec} {i : Nat} {h h' : Heap α} (hc : v.len < v.cap) (e : pushOwn T v i h = .ok (v', h')) :
    v'.data = v.data ∧ v'.cap = v.cap := by
  unfold pushOwn at e
  obtain ⟨_, _, _, e⟩ := M.bind_inv e
  obtain ⟨_, _, _, e⟩ := M.bind_inv e
  exact push_inv hc e

theorem pop_inv {T : Traits} {v v' : Vec} {h h' : Heap α} (e : pop T v h = .ok (v', h')) : v'.data = v.data ∧ v'.cap = v.cap := by
  unfold pop at e
  obtain ⟨_, _, _, e⟩ := M.bind_inv e
  obtain ⟨_, _, _, e⟩ := M.bind_inv e
  cases M.pure_inv e
  exact ⟨rfl, rfl⟩

theorem clear_inv {T : Traits} {v v' : Vec} {h h' : Heap α} (e : clear T v h = .ok (v', h')) : v'.data = v.data ∧ v'.cap = v.cap := by
  unfold clear at e
  obtain ⟨_, _, _, e⟩ := M.bind_inv e
  cases M.pure_inv e
  exact ⟨rfl, rfl⟩

theorem resize_inv {T : Traits} {d : α} {v v' : Vec} {n : Nat} {h h' : Heap α} (hc : n ≤ v.cap) (e : resize T d v n h = .ok (v', h')) :
    v'.data = v.data ∧ v'.cap = v.cap := by
  unfold resize at e
  obtain ⟨v1, _, e1, e⟩ := M.bind_inv e
  obtain ⟨_, _, e2⟩ := reserve_inv e1
  cases e2 hc
  obtain ⟨_, _, _, e⟩ := M.bind_inv e
  cases M.pure_inv e
  exact ⟨rfl, rfl⟩

theorem set_inv {v v' : Vec} {i : Nat} {a : α} {h h' : Heap α} (e : (do Vec.set v i a; return v : M α Vec) h = .ok (v', h')) :
    v'.data = v.data ∧ v'.cap = v.cap := by
  obtain ⟨_, _, _, e⟩ := M.bind_inv e
  cases M.pure_inv e
  exact ⟨rfl, rfl⟩

end Vec

namespace VecWorld

theorem on_inv {w w' : VecWorld α} {x : Nat} {f : Vec → M α Vec} {o : Out α} (e : w.on x f = .ok (o, w')) :
    ∃ v h, f (w.vars x) w.heap = .ok (v, h) ∧ w'.vars x = v := by
  simp only [on, bind, Except.bind, pure, Except.pure] at e
  cases hf : f (w.vars x) w.heap with
  | error _ => simp [hf] at e
  | ok p =>
    simp only [hf] at e
    injection e with e; injection e with _ e
    exact ⟨p.1, p.2, rfl, by rw [← e]; simp [upd]⟩

theorem query_inv {w w' : VecWorld α} {x : Nat} {f : Vec → M α (Out α)} {o : Out α} (e : w.query x f = .ok (o, w')) :
    w'.vars = w.vars := by
  simp only [query, bind, Except.bind, pure, Except.pure] at e
  cases hf : f (w.vars x) w.heap with
  | error _ => simp [hf] at e
  | ok p =>
    simp only [hf] at e
    injection e with e; injection e with _ e
    rw [← e]

/-- An operation that stays within the capacity changes neither block nor capacity. -/
theorem step_within {T : Traits} {d : α} {w w' : VecWorld α} {s s' : Vars α} {op : VecOp α} {o : Out α} {x : Nat}
    (hlen : (w.vars x).len = (s x).length) (hw : op.within x) (hs : vecStep d s op = some (o, s'))
    (hc : (s' x).length ≤ (w.vars x).cap) (e : step T d w op = .ok (o, w')) :
    (w'.vars x).data = (w.vars x).data ∧ (w'.vars x).cap = (w.vars x).cap := by
  by_cases hx : x ∉ op.targets
  · rw [step_vars e x hx]; exact ⟨rfl, rfl⟩
  rcases hw with hw | hw
  · exact absurd hw hx
  have hx : x ∈ op.targets := Classical.not_not.mp hx
  cases op with
  | push y a =>
    simp only [VecOp.targets, List.mem_singleton] at hx; subst hx
    simp only [vecStep, Option.some.injEq, Prod.mk.injEq] at hs
    simp only [step] at e
    obtain ⟨v, h, e1, e2⟩ := on_inv e
    rw [e2]
    refine Vec.push_inv ?_ e1
    rw [← hs.2] at hc
    simp [upd] at hc; omega
  | pushOwn y i =>
    simp only [VecOp.targets, List.mem_singleton] at hx; subst hx
    simp only [vecStep, Option.map_eq_some_iff, Prod.mk.injEq] at hs
    obtain ⟨a, _, _, hs⟩ := hs
    simp only [step] at e
    obtain ⟨v, h, e1, e2⟩ := on_inv e
    rw [e2]
    refine Vec.pushOwn_inv ?_ e1
    rw [← hs] at hc
    simp [upd] at hc; omega
  | pop y =>
    simp only [VecOp.targets, List.mem_singleton] at hx; subst hx
    simp only [step] at e
    obtain ⟨v, h, e1, e2⟩ := on_inv e
    rw [e2]; exact Vec.pop_inv e1
  | clear y =>
    simp only [VecOp.targets, List.mem_singleton] at hx; subst hx
    simp only [step] at e
    obtain ⟨v, h, e1, e2⟩ := on_inv e
    rw [e2]; exact Vec.clear_inv e1
  | set y i a =>
    simp only [VecOp.targets, List.mem_singleton] at hx; subst hx
    simp only [step] at e
    obtain ⟨v, h, e1, e2⟩ := on_inv e
    rw [e2]; exact Vec.set_inv e1
  | resize y n =>
    simp only [VecOp.targets, List.mem_singleton] at hx; subst hx
    simp only [vecStep, Option.some.injEq, Prod.mk.injEq] at hs
    simp only [step] at e
    obtain ⟨v, h, e1, e2⟩ := on_inv e
    rw [e2]
    refine Vec.resize_inv ?_ e1
    rw [← hs.2] at hc
    simp [upd] at hc; omega
  | extend y n =>
    simp only [VecOp.targets, List.mem_singleton] at hx; subst hx
    simp only [vecStep, Option.some.injEq, Prod.mk.injEq] at hs
    simp only [step] at e
    obtain ⟨v, h, e1, e2⟩ := on_inv e
    rw [e2]
    unfold Vec.extend at e1
    refine Vec.resize_inv ?_ e1
    rw [← hs.2] at hc
    simp [upd] at hc; omega
  | get y i => simp only [step] at e; rw [query_inv e]; exact ⟨rfl, rfl⟩
  | front y => simp only [step] at e; rw [query_inv e]; exact ⟨rfl, rfl⟩
  | back y => simp only [step] at e; rw [query_inv e]; exact ⟨rfl, rfl⟩
  | length y => simp only [step] at e; rw [query_inv e]; exact ⟨rfl, rfl⟩
  | elems y => simp only [step] at e; rw [query_inv e]; exact ⟨rfl, rfl⟩
  | fresh => exact hw.elim
  | make => exact hw.elim
  | init => exact hw.elim
  | reserve => exact hw.elim
  | moveAssign => exact hw.elim
  | cloneAssign => exact hw.elim
  | scopeEnd => exact hw.elim

theorem run_within {T : Traits} {d : α} {L x n : Nat} : ∀ (ops : List (VecOp α)) (w : VecWorld α) (s : Vars α) (D : Nat),
    Inv T w s D L → 2 * (D + vecDemand ops) + 8 ≤ L → n ≤ (w.vars x).cap → Stays d x n s ops →
    ∀ {os : List (Out α)} {s' : Vars α}, vecRun d s ops = some (os, s') →
    ∃ w', run T d w ops = .ok (os, w') ∧ Inv T w' s' (D + vecDemand ops) L ∧
      (w'.vars x).data = (w.vars x).data ∧ (w'.vars x).cap = (w.vars x).cap := by
  intro ops
  induction ops with
  | nil =>
    intro w s D I _ _ _ os s' hr
    simp only [vecRun, Option.some.injEq, Prod.mk.injEq] at hr
    obtain ⟨rfl, rfl⟩ := hr
    exact ⟨w, rfl, by simpa [vecDemand] using I, rfl, rfl⟩
  | cons op ops ih =>
    intro w s D I hL hn hst os s' hr
    have hdem : vecDemand (op :: ops) = op.demand + vecDemand ops := by simp [vecDemand]
    have h1 := step_spec (d := d) I op (by omega)
    simp only [vecRun] at hr
    cases hs : vecStep d s op with
    | none => simp [hs] at hr
    | some p =>
      obtain ⟨o, s1⟩ := p
      simp only [hs] at h1 hr
      obtain ⟨w1, e1, I1⟩ := h1
      obtain ⟨hst1, hst2⟩ := hst
      obtain ⟨hl, hst3⟩ := hst2 o s1 hs
      have hk := step_within (I.winv.rep x).1 hst1 hs (by omega) e1
      cases hr2 : vecRun d s1 ops with
      | none => simp [hr2] at hr
      | some p =>
        obtain ⟨os2, s2⟩ := p
        simp only [hr2, Option.some.injEq, Prod.mk.injEq] at hr
        obtain ⟨rfl, rfl⟩ := hr
        obtain ⟨w2, e2, I2, k1, k2⟩ := ih w1 s1 _ I1 (by omega) (by omega) hst3 hr2
        refine ⟨w2, ?_, ?_, k1.trans hk.1, k2.trans hk.2⟩
        · simp [run, e1, e2, bind, Except.bind, pure, Except.pure]
        · rw [hdem, ← Nat.add_assoc]; exact I2

end VecWorld

namespace Queue

theorem reserve_inv {T : Traits} {v v' : Queue} {n : Nat} {h h' : Heap α} (e : reserve T v n h = .ok (v', h')) :
    v'.cap = max v.cap n ∧ v'.len = v.len ∧ (n ≤ v.cap → v' = v) := by
  unfold reserve at e
  by_cases hn : n ≤ v.cap
  · rw [if_pos hn] at e
    cases M.pure_inv e
    exact ⟨by omega, rfl, fun _ => rfl⟩
  · rw [if_neg hn] at e
    obtain ⟨_, _, _, e⟩ := M.bind_inv e
    obtain ⟨_, _, _, e⟩ := M.bind_inv e
    obtain ⟨_, _, _, e⟩ := M.bind_inv e
    cases M.pure_inv e
    exact ⟨by show n = _; omega, rfl, fun h => absurd h hn⟩

theorem push_inv {T : Traits} {v v' : Queue} {a : α} {h h' : Heap α} (hc : v.len < v.cap) (e : push T v a h = .ok (v', h')) :
    v'.data = v.data ∧ v'.cap = v.cap := by
  unfold push at e
  obtain ⟨_, _, e1, e⟩ := M.bind_inv e
  rw [if_neg (by omega)] at e1
  cases M.pure_inv e1
  obtain ⟨_, _, _, e⟩ := M.bind_inv e
  cases M.pure_inv e
  exact ⟨rfl, rfl⟩

theorem pushOwn_inv {T : Traits} {v v' : Queue} {i : Nat} {h h' : Heap α} (hc : v.len < v.cap) (e : pushOwn T v i h = .ok (v', h')) :
    v'.data = v.data ∧ v'.cap = v.cap := by
  unfold pushOwn at e
  obtain ⟨_, _, _, e⟩ := M.bind_inv e
  exact push_inv hc e

theorem pop_inv {T : Traits} {v v' : Queue} {h h' : Heap α} (e : pop T v h = .ok (v', h')) : v'.data = v.data ∧ v'.cap = v.cap := by
  unfold pop at e
  obtain ⟨_, _, _, e⟩ := M.bind_inv e
  obtain ⟨_, _, _, e⟩ := M.bind_inv e
  cases M.pure_inv e
  exact ⟨rfl, rfl⟩

theorem clear_inv {T : Traits} {v v' : Queue} {h h' : Heap α} (e : clear T v h = .ok (v', h')) : v'.data = v.data ∧ v'.cap = v.cap := by
  unfold clear at e
  obtain ⟨_, _, _, e⟩ := M.bind_inv e
  cases M.pure_inv e
  exact ⟨rfl, rfl⟩

theorem set_inv {v v' : Queue} {i : Nat} {a : α} {h h' : Heap α} (e : (do Queue.set v i a; return v : M α Queue) h = .ok (v', h')) :
    v'.data = v.data ∧ v'.cap = v.cap := by
  obtain ⟨_, _, _, e⟩ := M.bind_inv e
  cases M.pure_inv e
  exact ⟨rfl, rfl⟩

theorem eraseFirst_inv [DecidableEq α] {T : Traits} {v : Queue} {r : Bool × Queue} {a : α} {h h' : Heap α}
    (e : eraseFirst T v a h = .ok (r, h')) : r.2.data = v.data ∧ r.2.cap = v.cap := by
  unfold eraseFirst at e
  obtain ⟨f, _, _, e⟩ := M.bind_inv e
  cases M.pure_inv e
  cases f <;> exact ⟨rfl, rfl⟩

end Queue

namespace QWorld
open Spec (QOp qStep qRun qDemand QStays)
variable [DecidableEq α]

omit [DecidableEq α] in
theorem on_inv {w w' : QWorld α} {x : Nat} {f : Queue → M α Queue} {o : Out α} (e : w.on x f = .ok (o, w')) :
    ∃ v h, f (w.vars x) w.heap = .ok (v, h) ∧ w'.vars x = v := by
  simp only [on, bind, Except.bind, pure, Except.pure] at e
  cases hf : f (w.vars x) w.heap with
  | error _ => simp [hf] at e
  | ok p =>
    simp only [hf] at e
    injection e with e; injection e with _ e
    exact ⟨p.1, p.2, rfl, by rw [← e]; simp [upd]⟩

omit [DecidableEq α] in
theorem query_inv {w w' : QWorld α} {x : Nat} {f : Queue → M α (Out α)} {o : Out α} (e : w.query x f = .ok (o, w')) :
    w'.vars = w.vars := by
  simp only [query, bind, Except.bind, pure, Except.pure] at e
  cases hf : f (w.vars x) w.heap with
  | error _ => simp [hf] at e
  | ok p =>
    simp only [hf] at e
    injection e with e; injection e with _ e
    rw [← e]

/-- An operation that stays within the capacity changes neither block nor capacity. -/
theorem step_within {T : Traits} {w w' : QWorld α} {s s' : Vars α} {op : QOp α} {o : Out α} {x : Nat}
    (hlen : (w.vars x).len = (s x).length) (hw : op.within x) (hs : qStep s op = some (o, s'))
    (hc : (s' x).length ≤ (w.vars x).cap) (e : step T w op = .ok (o, w')) :
    (w'.vars x).data = (w.vars x).data ∧ (w'.vars x).cap = (w.vars x).cap := by
  by_cases hx : x ∉ op.targets
  · rw [step_vars e x hx]; exact ⟨rfl, rfl⟩
  rcases hw with hw | hw
  · exact absurd hw hx
  have hx : x ∈ op.targets := Classical.not_not.mp hx
  cases op with
  | push y a =>
    simp only [QOp.targets, List.mem_singleton] at hx; subst hx
    simp only [qStep, Option.some.injEq, Prod.mk.injEq] at hs
    simp only [step] at e
    obtain ⟨v, h, e1, e2⟩ := on_inv e
    rw [e2]
    refine Queue.push_inv ?_ e1
    rw [← hs.2] at hc
    simp [upd] at hc; omega
  | pushOwn y i =>
    simp only [QOp.targets, List.mem_singleton] at hx; subst hx
    simp only [qStep, Option.map_eq_some_iff, Prod.mk.injEq] at hs
    obtain ⟨a, _, _, hs⟩ := hs
    simp only [step] at e
    obtain ⟨v, h, e1, e2⟩ := on_inv e
    rw [e2]
    refine Queue.pushOwn_inv ?_ e1
    rw [← hs] at hc
    simp [upd] at hc; omega
  | pop y =>
    simp only [QOp.targets, List.mem_singleton] at hx; subst hx
    simp only [step] at e
    obtain ⟨v, h, e1, e2⟩ := on_inv e
    rw [e2]; exact Queue.pop_inv e1
  | clear y =>
    simp only [QOp.targets, List.mem_singleton] at hx; subst hx
    simp only [step] at e
    obtain ⟨v, h, e1, e2⟩ := on_inv e
    rw [e2]; exact Queue.clear_inv e1
  | set y i a =>
    simp only [QOp.targets, List.mem_singleton] at hx; subst hx
    simp only [step] at e
    obtain ⟨v, h, e1, e2⟩ := on_inv e
    rw [e2]; exact Queue.set_inv e1
  | eraseFirst y a =>
    simp only [QOp.targets, List.mem_singleton] at hx; subst hx
    simp only [step, erase, bind, Except.bind, pure, Except.pure] at e
    cases hf : Queue.eraseFirst T (w.vars x) a w.heap with
    | error _ => simp [hf] at e
    | ok p =>
      simp only [hf] at e
      injection e with e; injection e with _ e
      rw [← e]
      simpa [upd] using Queue.eraseFirst_inv (r := p.1) (h' := p.2) hf
  | get y i => simp only [step] at e; rw [query_inv e]; exact ⟨rfl, rfl⟩
  | front y => simp only [step] at e; rw [query_inv e]; exact ⟨rfl, rfl⟩
  | back y => simp only [step] at e; rw [query_inv e]; exact ⟨rfl, rfl⟩
  | penultimate y => simp only [step] at e; rw [query_inv e]; exact ⟨rfl, rfl⟩
  | length y => simp only [step] at e; rw [query_inv e]; exact ⟨rfl, rfl⟩
  | elems y => simp only [step] at e; rw [query_inv e]; exact ⟨rfl, rfl⟩
  | fresh => exact hw.elim
  | reserve => exact hw.elim
  | moveAssign => exact hw.elim
  | cloneAssign => exact hw.elim
  | scopeEnd => exact hw.elim

theorem run_within {T : Traits} {L x n : Nat} (hM : L ≤ 2 ^ 63) : ∀ (ops : List (QOp α)) (w : QWorld α) (s : Vars α) (D : Nat),
    Inv T w s D L → 2 * (D + qDemand ops) + 8 ≤ L → Spec.qFine T.triv s ops → n ≤ (w.vars x).cap → QStays x n s ops →
    ∀ {os : List (Out α)} {s' : Vars α}, qRun s ops = some (os, s') →
    ∃ w', run T w ops = .ok (os, w') ∧ Inv T w' s' (D + qDemand ops) L ∧
      (w'.vars x).data = (w.vars x).data ∧ (w'.vars x).cap = (w.vars x).cap := by
  intro ops
  induction ops with
  | nil =>
    intro w s D I _ _ _ _ os s' hr
    simp only [qRun, Option.some.injEq, Prod.mk.injEq] at hr
    obtain ⟨rfl, rfl⟩ := hr
    exact ⟨w, rfl, by simpa [qDemand] using I, rfl, rfl⟩
  | cons op ops ih =>
    intro w s D I hL hF hn hst os s' hr
    have hdem : qDemand (op :: ops) = op.demand + qDemand ops := by simp [qDemand]
    have h1 := step_spec I op (by omega) hM hF.1
    simp only [qRun] at hr
    cases hs : qStep s op with
    | none => simp [hs] at hr
    | some p =>
      obtain ⟨o, s1⟩ := p
      have hF2 := hF.2
      simp only [hs] at h1 hr hF2
      obtain ⟨w1, e1, I1⟩ := h1
      obtain ⟨hst1, hst2⟩ := hst
      obtain ⟨hl, hst3⟩ := hst2 o s1 hs
      have hk := step_within (I.winv.rep x).1 hst1 hs (by omega) e1
      cases hr2 : qRun s1 ops with
      | none => simp [hr2] at hr
      | some p =>
        obtain ⟨os2, s2⟩ := p
        simp only [hr2, Option.some.injEq, Prod.mk.injEq] at hr
        obtain ⟨rfl, rfl⟩ := hr
        obtain ⟨w2, e2, I2, k1, k2⟩ := ih w1 s1 _ I1 (by omega) hF2 (by omega) hst3 hr2
        refine ⟨w2, ?_, ?_, k1.trans hk.1, k2.trans hk.2⟩
        · simp [run, e1, e2, bind, Except.bind, pure, Except.pure]
        · rw [hdem, ← Nat.add_assoc]; exact I2

end QWorld

namespace PHeap
open Spec (HOp HStays)

theorem reserve_inv {T : Traits} {v v' : Vec} {n : Nat} {h h' : Heap α} (e : reserve T v n h = .ok (v', h')) :
    v'.cap = max v.cap n ∧ v'.len = v.len ∧ (n ≤ v.cap → v' = v) := by
  unfold reserve at e
  by_cases hn : n ≤ v.cap
  · rw [if_pos hn] at e
    cases M.pure_inv e
    exact ⟨by omega, rfl, fun _ => rfl⟩
  · rw [if_neg hn] at e
    obtain ⟨_, _, _, e⟩ := M.bind_inv e
    obtain ⟨_, _, _, e⟩ := M.bind_inv e
    obtain ⟨_, _, _, e⟩ := M.bind_inv e
    cases M.pure_inv e
    exact ⟨by show n = _; omega, rfl, fun h => absurd h hn⟩

theorem push_inv {T : Traits} {lt : α → α → Bool} {v v' : Vec} {a : α} {h h' : Heap α} (hc : v.len < v.cap)
    (e : push T lt v a h = .ok (v', h')) : v'.data = v.data ∧ v'.cap = v.cap ∧ v'.len = v.len + 1 := by
  unfold push at e
  obtain ⟨_, _, e1, e⟩ := M.bind_inv e
  rw [if_neg (by omega)] at e1
  cases M.pure_inv e1
  obtain ⟨_, _, _, e⟩ := M.bind_inv e
  obtain ⟨_, _, _, e⟩ := M.bind_inv e
  cases M.pure_inv e
  exact ⟨rfl, rfl, rfl⟩

theorem pop_inv {T : Traits} {lt : α → α → Bool} {v v' : Vec} {h h' : Heap α} (e : pop T lt v h = .ok (v', h')) :
    v'.data = v.data ∧ v'.cap = v.cap ∧ v'.len = v.len - 1 := by
  unfold pop at e
  obtain ⟨_, _, _, e⟩ := M.bind_inv e
  obtain ⟨_, _, _, e⟩ := M.bind_inv e
  obtain ⟨_, _, _, e⟩ := M.bind_inv e
  cases M.pure_inv e
  exact ⟨rfl, rfl, rfl⟩

theorem clear_inv {T : Traits} {v v' : Vec} {h h' : Heap α} (e : Vec.clear T v h = .ok (v', h')) :
    v'.data = v.data ∧ v'.cap = v.cap ∧ v'.len = 0 := by
  unfold Vec.clear at e
  obtain ⟨_, _, _, e⟩ := M.bind_inv e
  cases M.pure_inv e
  exact ⟨rfl, rfl, rfl⟩

theorem run_within {T : Traits} {lt : α → α → Bool} {n : Nat} : ∀ (ops : List (HOp α)) {v v' : Vec} {h h' : Heap α}, n ≤ v.cap →
    HStays n v.len ops → (run T lt v h ops).2 = .ok (v', h') → v'.data = v.data ∧ v'.cap = v.cap := by
  intro ops
  induction ops with
  | nil => intro v v' h h' _ _ e; cases e; exact ⟨rfl, rfl⟩
  | cons op ops ih =>
    intro v v' h h' hn hst e
    simp only [run] at e
    cases hs : step T lt v op h with
    | error _ => rw [hs] at e; cases e
    | ok p =>
      obtain ⟨⟨o, v1⟩, h1⟩ := p
      rw [hs] at e
      simp only at e
      -- what the operation did to the three words
      have fin : v1.data = v.data ∧ v1.cap = v.cap → HStays n v1.len ops → v'.data = v.data ∧ v'.cap = v.cap := by
        rintro ⟨k1, k2⟩ hst'
        obtain ⟨k3, k4⟩ := ih (by omega) hst' e
        exact ⟨k3.trans k1, k4.trans k2⟩
      cases op with
      | push a =>
        simp only [HStays] at hst
        simp only [step] at hs
        obtain ⟨_, _, e1, e2⟩ := M.bind_inv hs
        cases M.pure_inv e2
        obtain ⟨k1, k2, k3⟩ := push_inv (by omega) e1
        exact fin ⟨k1, k2⟩ (by rw [k3]; exact hst.2)
      | pop =>
        simp only [HStays] at hst
        simp only [step] at hs
        obtain ⟨_, _, e1, e2⟩ := M.bind_inv hs
        cases M.pure_inv e2
        obtain ⟨k1, k2, k3⟩ := pop_inv e1
        exact fin ⟨k1, k2⟩ (by rw [k3]; exact hst)
      | take =>
        simp only [HStays] at hst
        simp only [step] at hs
        obtain ⟨_, _, _, hs⟩ := M.bind_inv hs
        obtain ⟨_, _, e1, e2⟩ := M.bind_inv hs
        cases M.pure_inv e2
        obtain ⟨k1, k2, k3⟩ := pop_inv e1
        exact fin ⟨k1, k2⟩ (by rw [k3]; exact hst)
      | clear =>
        simp only [HStays] at hst
        simp only [step] at hs
        obtain ⟨_, _, e1, e2⟩ := M.bind_inv hs
        cases M.pure_inv e2
        obtain ⟨k1, k2, k3⟩ := clear_inv e1
        exact fin ⟨k1, k2⟩ (by rw [k3]; exact hst)
      | top =>
        simp only [HStays] at hst
        simp only [step] at hs
        obtain ⟨_, _, _, e2⟩ := M.bind_inv hs
        cases M.pure_inv e2
        exact fin ⟨rfl, rfl⟩ hst
      | elems =>
        simp only [HStays] at hst
        simp only [step] at hs
        obtain ⟨_, _, _, e2⟩ := M.bind_inv hs
        cases M.pure_inv e2
        exact fin ⟨rfl, rfl⟩ hst
      | length =>
        simp only [HStays] at hst
        simp only [step] at hs
        cases M.pure_inv hs
        exact fin ⟨rfl, rfl⟩ hst
      | reserve => exact hst.elim
      | reclone => exact hst.elim

end PHeap

namespace Map
variable {K V : Type _} [DecidableEq K]

/-- Adding to a map that is not full leaves the capacity. -/
theorem insert_cap {H : K → Nat} {lim : Nat} {m m' : Map K V} {key : K} {val : V} {i : Nat} (hf : m.len ≠ m.usable)
    (e : insert H lim m key val = .ok (m', i)) : m'.cap = m.cap ∧ m'.usable = m.usable ∧ m'.len = m.len + 1 := by
  unfold insert at e
  rw [if_neg (by simpa [isFull] using hf)] at e
  simp only [bind, Except.bind, pure, Except.pure] at e
  split at e
  · cases e
  · cases e; exact ⟨rfl, rfl, rfl⟩

theorem insert_lim {H : K → Nat} {lim lim' : Nat} {m : Map K V} {key : K} {val : V} (hf : m.len ≠ m.usable) :
    insert H lim m key val = insert H lim' m key val := by
  unfold insert
  rw [if_neg (by simpa [isFull] using hf), if_neg (by simpa [isFull] using hf)]

theorem Inv.mono {H : K → Nat} {lim lim' : Nat} {m : Map K V} (h : Inv H lim m) (hl : lim ≤ lim') : Inv H lim' m :=
  { h with fits := Nat.le_trans h.fits hl }

/-- Adding to a map with room needs no memory and leaves the capacity. -/
theorem insertAll_ok {H : K → Nat} (hH : HashOK H) {lim : Nat} (hlim : lim < 2 ^ 60) : ∀ (kvs : List (K × V)) {m : Map K V}, Inv H lim m →
    m.len + kvs.length ≤ m.usable →
    ∃ m', insertAll H lim m kvs = .ok m' ∧ m'.cap = m.cap ∧ m'.len = m.len + kvs.length := by
  intro kvs
  induction kvs with
  | nil => intro m _ _; exact ⟨m, rfl, rfl, rfl⟩
  | cons p kvs ih =>
    intro m h hle
    simp only [List.length_cons] at hle ⊢
    have hf : m.len ≠ m.usable := by omega
    have hus := h.us; have hfits := h.fits
    rcases insert_ok hH (lim := 2 ^ 62 - 1) (by omega) (h.mono (by omega)) p.1 p.2 with ⟨hlow, _⟩ | ⟨m1, i, e, h1, _⟩
    · exfalso; omega
    · obtain ⟨c1, c2, c3⟩ := insert_cap hf e
      have hc : m1.cap ≤ lim := by omega
      obtain ⟨m2, e2, d1, d2⟩ := ih (m := m1) { h1 with fits := hc } (by omega)
      refine ⟨m2, ?_, by omega, by omega⟩
      rw [insert_lim (lim' := lim) hf] at e
      simp only [insertAll, e, bind, Except.bind]
      exact e2

end Map
end Rpp
