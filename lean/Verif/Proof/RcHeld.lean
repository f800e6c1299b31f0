import Verif.Proof.RcExec
import Verif.Spec.RcHeld
import Mathlib.Data.Fintype.Card

/-! Values that no variable leads to. -/

namespace Rpp
namespace Rc
variable {α : Type}

/-- The blocks of `U` are there, and only they point to blocks of `U`. -/
structure Trap (U : Nat → Prop) (s : St α) : Prop where
  live : ∀ b, U b → (s.blk b).isSome
  closed : ∀ l b, s.target l = some b → U b → ∃ y, l = .fld y ∧ U y

/-- The blocks of `U` are as before. -/
def Keep (U : Nat → Prop) (s s' : St α) : Prop := ∀ x, U x → s'.blk x = s.blk x

theorem Keep.trans {U : Nat → Prop} {s s' s'' : St α} (h : Keep U s s') (h' : Keep U s' s'') : Keep U s s'' :=
  fun x hx => (h' x hx).trans (h x hx)

theorem Trap.setBlk {U : Nat → Prop} {s : St α} (h : Trap U s) {b : Nat} {k : Blk α} (hk : s.blk b = some k) (hb : ¬ U b)
    (k' : Option (Blk α)) (hn : ∀ c, k'.bind Blk.next = some c → ¬ U c) :
    Trap U (s.setBlk b k') ∧ Keep U s (s.setBlk b k') := by
  have hlt := blk_lt hk
  have hkeep : Keep U s (s.setBlk b k') := by
    intro x hx
    rw [setBlk_blk k' x hlt, if_neg (fun e : x = b => hb (e ▸ hx))]
  refine ⟨⟨fun x hx => by rw [hkeep x hx]; exact h.live x hx, fun l c hl hc => ?_⟩, hkeep⟩
  cases l with
  | var i => exact h.closed (.var i) c hl hc
  | fld y =>
    refine ⟨y, rfl, ?_⟩
    by_cases e : y = b
    · subst e
      rw [target_fld, setBlk_blk k' y hlt, if_pos rfl] at hl
      exact absurd hc (hn c hl)
    · rw [target_fld, setBlk_blk k' y hlt, if_neg e] at hl
      obtain ⟨y', e', hy⟩ := h.closed (.fld y) c hl hc
      cases e'
      exact hy

theorem Trap.out {U : Nat → Prop} {s : St α} (h : Trap U s) {b c : Nat} (hb : ¬ U b) (hc : s.target (.fld b) = some c) : ¬ U c := by
  intro hu
  obtain ⟨y, e, hy⟩ := h.closed _ c hc hu
  cases e
  exact hb hy

theorem Trap.free {U : Nat → Prop} {s s' : St α} (h : Trap U s) {b : Nat} (hb : ¬ U b) (e : s.free b = .ok s') :
    Trap U s' ∧ Keep U s s' := by
  unfold St.free at e
  split at e
  · rename_i k hk
    cases e
    obtain ⟨h1, h2⟩ := h.setBlk hk hb none (by simp)
    exact ⟨⟨h1.live, h1.closed⟩, h2⟩
  · cases e

/-- The location is not inside of a block of `U`. -/
def Outside (U : Nat → Prop) : Loc → Prop
  | .var _ => True
  | .fld y => ¬ U y

theorem Trap.set {U : Nat → Prop} {s s' : St α} (h : Trap U s) {l : Loc} (hl : Outside U l) {t : Option Nat}
    (ht : ∀ c, t = some c → ¬ U c) (e : s.set l t = .ok s') : Trap U s' ∧ Keep U s s' := by
  unfold St.set at e
  cases l with
  | var i =>
    dsimp only at e
    split at e
    · rename_i h0 eq
      cases e
      refine ⟨⟨h.live, fun l c hc hu => ?_⟩, fun x _ => rfl⟩
      cases l with
      | fld y => exact h.closed (.fld y) c hc hu
      | var j =>
        by_cases ej : i = j
        · subst ej
          have hlt := (List.getElem?_eq_some_iff.mp eq).1
          unfold St.target at hc
          dsimp only at hc
          rw [List.getElem?_set_self hlt] at hc
          exact absurd hu (ht c hc)
        · unfold St.target at hc
          dsimp only at hc
          rw [List.getElem?_set_ne ej] at hc
          exact h.closed (.var j) c hc hu
    · cases e
  | fld y =>
    dsimp only at e
    split at e
    · rename_i k hk
      cases e
      exact h.setBlk hk hl _ (fun c hc => ht c hc)
    · cases e

theorem Trap.release {U : Nat → Prop} : ∀ (f : Nat) {s s' : St α} {b : Nat}, Trap U s → ¬ U b → release f s b = .ok s' →
    Trap U s' ∧ Keep U s s'
  | 0, s, s', b, h, hb, e => by cases e
  | f + 1, s, s', b, h, hb, e => by
    unfold Rc.release at e
    cases hk : s.blk b with
    | none => rw [hk] at e; cases e
    | some k =>
      rw [hk] at e
      dsimp only at e
      have hnext : ∀ c, k.next = some c → ¬ U c := fun c hc => h.out hb (by rw [target_fld, hk]; exact hc)
      obtain ⟨h1, k1⟩ := h.setBlk hk hb (some { k with refs := wsub k.refs 1 }) (fun c hc => hnext c hc)
      split at e
      · split at e
        · obtain ⟨h2, k2⟩ := h1.free hb e
          exact ⟨h2, k1.trans k2⟩
        · rename_i c hc
          cases e2 : Rc.release f (s.setBlk b (some { k with refs := wsub k.refs 1 })) c with
          | error x => rw [e2] at e; cases e
          | ok s2 =>
            rw [e2, rc_ok_bind] at e
            obtain ⟨h2, k2⟩ := Trap.release f h1 (hnext c hc) e2
            cases e3 : s2.set (.fld b) none with
            | error x => rw [e3] at e; cases e
            | ok s3 =>
              rw [e3, rc_ok_bind] at e
              obtain ⟨h3, k3⟩ := h2.set (l := .fld b) hb (by simp) e3
              obtain ⟨h4, k4⟩ := h3.free hb e
              exact ⟨h4, ((k1.trans k2).trans k3).trans k4⟩
      · cases e
        exact ⟨h1, k1⟩

theorem Trap.get {U : Nat → Prop} {s : St α} (h : Trap U s) {l : Loc} (hl : Outside U l) {t : Option Nat} (e : s.get l = .ok t) :
    ∀ c, t = some c → ¬ U c := by
  intro c hc hu
  obtain ⟨y, e', hy⟩ := h.closed l c (by rw [get_target e, hc]) hu
  subst e'
  exact hl hy

theorem Trap.drop {U : Nat → Prop} {s s' : St α} (h : Trap U s) {l : Loc} (hl : Outside U l) (e : drop s l = .ok s') :
    Trap U s' ∧ Keep U s s' := by
  unfold Rc.drop at e
  cases hg : s.get l with
  | error x => rw [hg] at e; cases e
  | ok t =>
    rw [hg, rc_ok_bind] at e
    cases t with
    | none => cases e; exact ⟨h, fun _ _ => rfl⟩
    | some b =>
      dsimp only at e
      cases e2 : Rc.release (s.blks.length + 1) s b with
      | error x => rw [e2] at e; cases e
      | ok s2 =>
        rw [e2, rc_ok_bind] at e
        obtain ⟨h2, k2⟩ := Trap.release _ h (h.get hl hg b rfl) e2
        obtain ⟨h3, k3⟩ := h2.set hl (by simp) e
        exact ⟨h3, k2.trans k3⟩

theorem Trap.locate {U : Nat → Prop} {s : St α} (h : Trap U s) {v : Nat} : ∀ (n : Nat) {l : Loc}, locate s v n = .ok l → Outside U l
  | 0, l, e => by
    unfold Rc.locate at e
    split at e
    · cases e; trivial
    · cases e
  | n + 1, l, e => by
    unfold Rc.locate at e
    cases e1 : Rc.locate s v n with
    | error x => rw [e1] at e; cases e
    | ok l1 =>
      rw [e1, rc_ok_bind] at e
      cases e2 : s.get l1 with
      | error x => rw [e2] at e; cases e
      | ok t =>
        rw [e2, rc_ok_bind] at e
        cases t with
        | none => cases e
        | some b =>
          dsimp only at e
          split at e
          · cases e
            exact h.get (Trap.locate h n e1) e2 b rfl
          · cases e

theorem Trap.declare {U : Nat → Prop} {s : St α} (h : Trap U s) {t : Option Nat} (ht : ∀ c, t = some c → ¬ U c) :
    Trap U (s.declare t) ∧ Keep U s (s.declare t) := by
  refine ⟨⟨h.live, fun l c hc hu => ?_⟩, fun x _ => rfl⟩
  rw [declare_target] at hc
  by_cases e : l = .var s.vars.length
  · subst e; rw [upd_same] at hc; exact absurd hu (ht c hc)
  · rw [upd_other _ _ e] at hc; exact h.closed l c hc hu

theorem bind_inv {β γ : Type} {x : Res β} {f : β → Res γ} {r : γ} (h : (x >>= f) = .ok r) : ∃ a, x = .ok a ∧ f a = .ok r := by
  cases x with
  | error e => cases h
  | ok a => exact ⟨a, rfl, h⟩

/-- What every operation keeps. -/
theorem Trap.exec {U : Nat → Prop} {s s' : St α} (h : Trap U s) (op : Op α) (e : exec s op = .ok s') : Trap U s' ∧ Keep U s s' := by
  have addref : ∀ {b : Nat} {k : Blk α} {r : Nat}, s.blk b = some k → ¬ U b →
      Trap U ((s.setBlk b (some { k with refs := r })).declare (some b)) ∧
      Keep U s ((s.setBlk b (some { k with refs := r })).declare (some b)) := by
    intro b k r hk hb
    obtain ⟨h1, k1⟩ := h.setBlk hk hb (some { k with refs := r }) (fun c hc => h.out hb (by rw [target_fld, hk]; exact hc))
    obtain ⟨h2, k2⟩ := h1.declare (t := some b) (fun c hc => by cases hc; exact hb)
    exact ⟨h2, k1.trans k2⟩
  cases op with
  | null => cases e; exact h.declare (by simp)
  | make a =>
    cases e
    have hlt : ∀ x, U x → x < s.blks.length := by
      intro x hx
      obtain ⟨k, hk⟩ := Option.isSome_iff_exists.mp (h.live x hx)
      exact blk_lt hk
    have hk : ∀ x, x < s.blks.length → ({ s with blks := s.blks ++ [some (Blk.mk 1 a none)] } : St α).blk x = s.blk x := by
      intro x hx
      unfold St.blk
      dsimp only
      rw [List.getElem?_append_left hx]
    have h1 : Trap U ({ s with blks := s.blks ++ [some (Blk.mk 1 a none)] } : St α) := by
      refine ⟨fun x hx => by rw [hk x (hlt x hx)]; exact h.live x hx, fun l c hc hu => ?_⟩
      cases l with
      | var i => exact h.closed (.var i) c hc hu
      | fld y =>
        by_cases hy : y < s.blks.length
        · rw [target_fld, hk y hy] at hc
          exact h.closed (.fld y) c hc hu
        · rw [target_fld] at hc
          unfold St.blk at hc
          dsimp only at hc
          rw [List.getElem?_append_right (by omega)] at hc
          cases hd : y - s.blks.length with
          | zero => rw [hd] at hc; cases hc
          | succ m => rw [hd] at hc; simp at hc
    obtain ⟨h2, k2⟩ := h1.declare (t := some s.blks.length) (fun c hc hu => by cases hc; exact absurd (hlt _ hu) (by omega))
    exact ⟨h2, fun x hx => (k2 x hx).trans (hk x (hlt x hx))⟩
  | dup p =>
    obtain ⟨l, e1, e⟩ := bind_inv e
    obtain ⟨t, e2, e⟩ := bind_inv e
    cases t with
    | none => cases e; exact h.declare (by simp)
    | some b =>
      dsimp only at e
      split at e
      · cases e
      · rename_i k hk
        cases e
        exact addref hk (h.get (h.locate _ e1) e2 b rfl)
  | fromThis p =>
    obtain ⟨l, e1, e⟩ := bind_inv e
    obtain ⟨t, e2, e⟩ := bind_inv e
    cases t with
    | none => cases e
    | some b =>
      dsimp only at e
      split at e
      · cases e
      · rename_i k hk
        cases e
        exact addref hk (h.get (h.locate _ e1) e2 b rfl)
  | move p =>
    obtain ⟨l, e1, e⟩ := bind_inv e
    obtain ⟨t, e2, e⟩ := bind_inv e
    obtain ⟨s1, e3, e⟩ := bind_inv e
    cases e
    have ho := h.locate _ e1
    obtain ⟨h1, k1⟩ := h.set ho (by simp) e3
    obtain ⟨h2, k2⟩ := h1.declare (h.get ho e2)
    exact ⟨h2, k1.trans k2⟩
  | assign p q =>
    obtain ⟨lp, e1, e⟩ := bind_inv e
    obtain ⟨lq, e2, e⟩ := bind_inv e
    obtain ⟨s1, e3, e⟩ := bind_inv e
    obtain ⟨t, e4, e⟩ := bind_inv e
    obtain ⟨s2, e5, e⟩ := bind_inv e
    have hp := h.locate _ e1
    have hq := h.locate _ e2
    obtain ⟨h1, k1⟩ := h.drop hp e3
    obtain ⟨h2, k2⟩ := h1.set hp (h1.get hq e4) e5
    obtain ⟨h3, k3⟩ := h2.set hq (by simp) e
    exact ⟨h3, (k1.trans k2).trans k3⟩
  | clear p =>
    obtain ⟨l, e1, e⟩ := bind_inv e
    exact h.drop (h.locate _ e1) e
  | leave v =>
    obtain ⟨l, e1, e⟩ := bind_inv e
    obtain ⟨s1, e3, e⟩ := bind_inv e
    cases e
    obtain ⟨h1, k1⟩ := h.drop (h.locate _ e1) e3
    refine ⟨⟨h1.live, fun l c hc hu => ?_⟩, k1⟩
    cases l with
    | fld y => exact h1.closed (.fld y) c hc hu
    | var j =>
      unfold St.target at hc
      dsimp only at hc
      rw [List.getElem?_set] at hc
      split at hc
      · split at hc <;> cases hc
      · exact h1.closed (.var j) c hc hu

theorem Trap.execAll {U : Nat → Prop} : ∀ (ops : List (Op α)) {s s' : St α}, Trap U s → execAll s ops = .ok s' →
    Trap U s' ∧ Keep U s s'
  | [], s, s', h, e => by cases e; exact ⟨h, fun _ _ => rfl⟩
  | op :: ops, s, s', h, e => by
    obtain ⟨s1, e1, e⟩ := bind_inv e
    obtain ⟨h1, k1⟩ := h.exec op e1
    obtain ⟨h2, k2⟩ := Trap.execAll ops h1 e
    exact ⟨h2, k1.trans k2⟩

/-- The values that no variable leads to are a trap. -/
theorem trap_of_unheld (s : St α) : Trap (fun b => (s.blk b).isSome ∧ ¬ Held s b) s := by
  refine ⟨fun b h => h.1, fun l b hl hb => ?_⟩
  cases l with
  | var v => exact absurd ⟨v, _, .fld .var hl⟩ hb.2
  | fld y =>
    refine ⟨y, rfl, ?_, ?_⟩
    · rw [target_fld] at hl
      cases e : s.blk y with
      | none => rw [e] at hl; cases hl
      | some k => rfl
    · rintro ⟨v, n, hv⟩
      exact hb.2 ⟨v, _, .fld hv hl⟩

theorem Chain.trans {s : St α} {a b c : Nat} (h : Chain s a b) (h' : Chain s b c) : Chain s a c := by
  induction h' with
  | one e => exact h.more e
  | more _ e ih => exact ih.more e

/-- Without cycles variables lead to all values that are there. -/
theorem held_of_acyclic {s : St α} (hg : Good s) (ha : Acyclic s) {b : Nat} (hb : (s.blk b).isSome) : Held s b := by
  let r : Fin s.blks.length → Fin s.blks.length → Prop := fun x y => Chain s x y
  have : IsTrans _ r := ⟨fun _ _ _ h h' => h.trans h'⟩
  have : Std.Irrefl r := ⟨fun x => ha x⟩
  have : Finite (Fin s.blks.length) := .intro (Equiv.refl _)
  have wf : WellFounded r := Finite.wellFounded_of_trans_of_irrefl r
  obtain ⟨k, hk⟩ := Option.isSome_iff_exists.mp hb
  have key : ∀ x : Fin s.blks.length, (s.blk x).isSome → Held s x := by
    intro x
    induction x using wf.induction with
    | _ x ih =>
      intro hx
      obtain ⟨k, hk⟩ := Option.isSome_iff_exists.mp hx
      obtain ⟨l, _, hl⟩ := exists_of_cnt_pos (hg.used x k hk)
      cases l with
      | var v => exact ⟨v, _, .fld .var hl⟩
      | fld y =>
        have hy : (s.blk y).isSome := by
          rw [target_fld] at hl
          cases e : s.blk y with
          | none => rw [e] at hl; cases hl
          | some k => rfl
        obtain ⟨ky, hky⟩ := Option.isSome_iff_exists.mp hy
        obtain ⟨v, n, hv⟩ := ih ⟨y, blk_lt hky⟩ (.one hl) hy
        exact ⟨v, _, .fld hv hl⟩
  exact key ⟨b, blk_lt hk⟩ hb

theorem held_live {s : St α} (hg : Good s) {b : Nat} (h : Held s b) : (s.blk b).isSome := by
  obtain ⟨v, n, h⟩ := h
  cases h with
  | fld _ hl => exact hg.live _ _ hl

/-- As many calls as values that are destroyed. -/
theorem release_count : ∀ (f : Nat) {s s' : St α} {b : Nat}, release f s b = .ok s' →
    ∃ L, s'.dead = s.dead ++ L ∧ L.length ≤ f
  | 0, s, s', b, e => by cases e
  | f + 1, s, s', b, e => by
    have free_dead : ∀ {t t' : St α}, t.free b = .ok t' → t'.dead = t.dead ++ [b] := by
      intro t t' h
      unfold St.free at h
      split at h
      · cases h; rfl
      · cases h
    unfold Rc.release at e
    split at e
    · cases e
    · dsimp only at e
      split at e
      · split at e
        · exact ⟨[b], (free_dead e).trans rfl, by simp⟩
        · obtain ⟨s2, e2, e⟩ := bind_inv e
          obtain ⟨s3, e3, e⟩ := bind_inv e
          obtain ⟨L, h1, h2⟩ := release_count f e2
          have hd : s3.dead = s2.dead := by
            unfold St.set at e3
            dsimp only at e3
            split at e3
            · cases e3; rfl
            · cases e3
          refine ⟨L ++ [b], ?_, by simp; omega⟩
          rw [free_dead e, hd, h1]
          simp [St.setBlk]
      · cases e
        exact ⟨[], by simp [St.setBlk], by simp⟩

/-- A list of `n + 1` values, the last one made being the first of the list, in the last variable. -/
def chainSt (n : Nat) : St Nat :=
  ⟨List.replicate n (some none) ++ [some (some n)],
    (List.range (n + 1)).map fun i => some ⟨1, i, if i = 0 then none else some (i - 1)⟩, []⟩

theorem chain_blk {n i : Nat} (h : i ≤ n) : (chainSt n).blk i = some ⟨1, i, if i = 0 then none else some (i - 1)⟩ := by
  unfold St.blk chainSt
  dsimp only
  rw [List.getElem?_map, List.getElem?_range (by omega)]
  rfl

theorem release_hang : ∀ (f : Nat) {s : St Nat} {k : Nat}, f ≤ k →
    (∀ i ≤ k, s.blk i = some ⟨1, i, if i = 0 then none else some (i - 1)⟩) → release f s k = .error .hang
  | 0, s, k, _, _ => rfl
  | f + 1, s, k, hf, h => by
    unfold Rc.release
    rw [h k (Nat.le_refl _)]
    dsimp only
    rw [if_pos (by rfl), if_neg (by omega)]
    dsimp only
    rw [release_hang f (by omega)]
    · rfl
    · intro i hi
      rw [setBlk_blk _ i (blk_lt (h k (Nat.le_refl _))), if_neg (by omega)]
      exact h i (by omega)

theorem chain_reachable : ∀ n, n < 2 ^ 61 → Reachable (chainSt n)
  | 0, _ => .step (op := .make 0) .init (by simp [Legal, St.init]) rfl
  | n + 1, hn => by
    have h := chain_reachable n (by omega)
    have hlen : (chainSt n).blks.length = n + 1 := by simp [chainSt]
    let m : St Nat := ⟨List.replicate n (some none) ++ [some (some n)] ++ [some (some (n + 1))],
      ((List.range (n + 1)).map fun i => some ⟨1, i, if i = 0 then none else some (i - 1)⟩) ++ [some ⟨1, n + 1, none⟩], []⟩
    have hm : Reachable m := by
      refine .step (op := .make (n + 1)) h ?_ ?_
      · show (chainSt n).vars.length + (chainSt n).blks.length < 2 ^ 63
        rw [hlen]
        simp only [chainSt, List.length_append, List.length_replicate, List.length_singleton]
        omega
      · simp only [exec, hlen]
        rfl
    have v1 : m.vars[n + 1]? = some (some (some (n + 1))) := by
      simp only [m]
      rw [List.getElem?_append_right (by simp)]
      simp
    have v0 : m.vars[n]? = some (some (some n)) := by
      simp only [m]
      rw [List.getElem?_append_left (by simp), List.getElem?_append_right (by simp)]
      simp
    have b1 : m.blk (n + 1) = some ⟨1, n + 1, none⟩ := by
      simp only [m, St.blk]
      rw [List.getElem?_append_right (by simp)]
      simp
    have l1 : locate m (n + 1) 1 = .ok (.fld (n + 1)) := by
      simp only [locate, v1, rc_ok_bind, St.get, b1]
    have l0 : locate m n 0 = .ok (.var n) := by simp only [locate, v0]
    refine .step (op := .assign ⟨n + 1, 1⟩ ⟨n, 0⟩) hm ⟨⟨_, v1⟩, ⟨_, v0⟩, fun lp d _ hd => by cases hd⟩ ?_
    simp only [exec, l1, l0, rc_ok_bind, drop, St.get, b1, St.set]
    simp only [pure, Except.pure, rc_ok_bind, b1, v0]
    rw [show (m.setBlk (n + 1) (some { refs := 1, val := n + 1, next := some n })).vars[n]? = some (some (some n)) from v0]
    dsimp only
    congr 1
    have e1 : m.vars.set n (some none) = (chainSt (n + 1)).vars := by
      simp only [m, chainSt]
      rw [List.append_assoc, List.set_append_right _ _ (by simp), List.replicate_succ', List.append_assoc]
      simp
    have e2 : m.blks.set (n + 1) (some ⟨1, n + 1, some n⟩) = (chainSt (n + 1)).blks := by
      simp only [m, chainSt]
      rw [List.set_append_right _ _ (by simp), List.range_succ (n := n + 1), List.map_append]
      simp
    show (⟨m.vars.set n (some none), m.blks.set (n + 1) (some ⟨1, n + 1, some n⟩), []⟩ : St Nat) = chainSt (n + 1)
    rw [e1, e2]
    rfl

end Rc
end Rpp
