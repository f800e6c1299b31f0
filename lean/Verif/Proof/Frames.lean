import Verif.Model.Frames
import Verif.Proof.Profile
import Verif.Proof.Queue

/-!
# The frames a thread keeps: helper lemmas
-/

namespace Rpp.Prof

open Rpp.Spec.Prof Rpp.Spec.Frames

variable {L : Type} [DecidableEq L]

/-! ## Lists -/

omit [DecidableEq L] in
theorem latest_snoc {ε : Type} (ini : List (Rec ε)) (r : Rec ε) : latest 8 (ini ++ [r]) = ini.drop (ini.length - 7) ++ [r] := by
  unfold latest
  rw [List.length_append, List.length_singleton, List.drop_append_of_le_length (by omega)]
  congr 2

omit [DecidableEq L] in
theorem latest_len {ε : Type} (rs : List (Rec ε)) : (latest 8 rs).length = min 8 rs.length := by
  unfold latest
  rw [List.length_drop]
  omega

omit [DecidableEq L] in
theorem latest_push {ε : Type} (rs : List (Rec ε)) (r : Rec ε) :
    latest 8 (rs ++ [r]) = (if rs.length < 8 then latest 8 rs else (latest 8 rs).tail) ++ [r] := by
  rw [latest_snoc]
  congr 1
  unfold latest
  split
  · rw [show rs.length - 7 = 0 by omega, show rs.length - 8 = 0 by omega]
  · rw [List.tail_drop, show rs.length - 8 + 1 = rs.length - 7 by omega]

omit [DecidableEq L] in
theorem isOpen_snoc {ε : Type} (ini : List (Rec ε)) (r : Rec ε) : isOpen (ini ++ [r]) = r.t₁.isNone := by
  unfold isOpen; simp

omit [DecidableEq L] in
theorem onLast_snoc {ε : Type} (ini : List (Rec ε)) (r : Rec ε) (f : Rec ε → Rec ε) : onLast (ini ++ [r]) f = ini ++ [f r] := by
  unfold onLast; simp

/-! ## The content of frames -/

/-- What the profiler holds for a frame that is still open. -/
def openFrame (root : L) (t₀ : W) (es : List (Ev L)) : Res (Frame L) :=
  match begin root t₀ {} with
  | .error e => .error e
  | .ok f => steps f es

/-- What the profiler holds for the frame of a record. -/
def val (root : L) (r : Rec (Ev L)) : Res (Frame L) :=
  match r.t₁ with
  | none => openFrame root r.t₀ r.es
  | some t₁ => frame root r.t₀ r.es t₁

/-- All scopes were left. -/
def balanced (es : List (Ev L)) : Bool := (trace (es.map toAct)).stack.isEmpty

theorem openFrame_inv (root : L) (t₀ : W) (es : List (Ev L)) :
    ∃ f, openFrame root t₀ es = .ok f ∧ Inv t₀ f (trace (es.map toAct)) := by
  obtain ⟨f0, h1, h2⟩ := begin_inv root t₀
  obtain ⟨g, h3, h4⟩ := steps_inv es f0 _ h2
  exact ⟨g, by unfold openFrame; simp only [h1, h3], h4⟩

theorem steps_append (f : Frame L) (es : List (Ev L)) (e : Ev L) :
    steps f (es ++ [e]) = match steps f es with
      | .error x => .error x
      | .ok g => step g e := by
  induction es generalizing f with
  | nil => simp only [List.nil_append, steps]; cases step f e <;> rfl
  | cons a es ih =>
    simp only [List.cons_append, steps]
    cases step f a with
    | error x => rfl
    | ok g => exact ih g

theorem openFrame_ev {root : L} {t₀ : W} {es : List (Ev L)} {f : Frame L} (h : openFrame root t₀ es = .ok f) (e : Ev L) :
    step f e = openFrame root t₀ (es ++ [e]) := by
  unfold openFrame at h ⊢
  cases hb : begin root t₀ {} with
  | error x => rw [hb] at h; cases h
  | ok g =>
    rw [hb] at h
    dsimp only at h ⊢
    rw [steps_append, h]

theorem openFrame_fin {root : L} {t₀ : W} {es : List (Ev L)} {f : Frame L} (h : openFrame root t₀ es = .ok f) (t : W) :
    finish t f = frame root t₀ es t := by
  unfold openFrame at h
  unfold frame
  cases hb : begin root t₀ {} with
  | error x => rw [hb] at h; cases h
  | ok g =>
    rw [hb] at h
    dsimp only at h ⊢
    rw [h]

theorem val_ne {root : L} {r : Rec (Ev L)} {f : Frame L} (h : val root r = .ok f) : f.nodes ≠ [] := by
  unfold val at h
  split at h
  · obtain ⟨g, h1, h2⟩ := openFrame_inv root r.t₀ r.es
    rw [h] at h1
    cases h1
    intro hn
    have := h2.ti.pos
    rw [tree_len, hn] at this
    simp at this
  · rename_i t₁ _
    by_cases hs : (trace (r.es.map toAct)).stack = []
    · obtain ⟨f', g, _, h1, h2, _, _, h3, _⟩ := frame_ok root r.t₀ r.es t₁ hs
      rw [h] at h1
      cases h1
      intro hn
      have := h2.ti.pos
      rw [← h3, tree_len, hn] at this
      simp at this
    · rw [frame_die root r.t₀ r.es t₁ hs] at h
      cases h

/-! ## The queue -/

omit [DecidableEq L] in
theorem bind_ok {α β γ : Type} {m : M α β} {f : β → M α γ} {h h' : Heap α} {c : γ} (e : (m >>= f) h = .ok (c, h')) :
    ∃ b h1, m h = .ok (b, h1) ∧ f b h1 = .ok (c, h') := by
  have e' : (match m h with
    | .ok (b, h1) => f b h1
    | .error x => .error x) = .ok (c, h') := by
    rw [← e]
    show _ = (StateT.bind m f h)
    simp only [StateT.bind, bind, Except.bind]
    cases m h <;> rfl
  cases hm : m h with
  | error x => rw [hm] at e'; cases e'
  | ok p => rw [hm] at e'; exact ⟨p.1, p.2, rfl, e'⟩

theorem reserve_cap {α : Type} {T : Traits} {q v : Queue} {n : Nat} {h h' : Heap α} (hn : q.cap < n)
    (e : Queue.reserve T q n h = .ok (v, h')) : v.cap = n := by
  unfold Queue.reserve at e
  rw [if_neg (by omega)] at e
  obtain ⟨p, h1, _, e⟩ := bind_ok e
  dsimp only at e
  obtain ⟨_, h2, _, e⟩ := bind_ok e
  obtain ⟨_, h3, _, e⟩ := bind_ok e
  cases e
  rfl

theorem push_cap {α : Type} {T : Traits} {q v : Queue} {x : α} {h h' : Heap α} (e : Queue.push T q x h = .ok (v, h')) :
    v.cap = if q.len = q.cap then (if q.cap ≠ 0 then 2 * q.cap else 8) else q.cap := by
  unfold Queue.push at e
  obtain ⟨q1, h1, e1, e⟩ := bind_ok e
  obtain ⟨_, h2, _, e⟩ := bind_ok e
  cases e
  dsimp only
  split
  · rename_i c
    rw [if_pos c] at e1
    unfold Queue.grow at e1
    exact reserve_cap (by split <;> omega) e1
  · rename_i c
    rw [if_neg c] at e1
    cases e1
    rfl

/-- The queue of frames is the only block in memory, and holds `l`. -/
structure Holds (T : Traits) (lim : Nat) (h : Heap (Frame L)) (q : Queue) (l : List (Frame L)) : Prop where
  rep : Queue.Rep T h q l
  only : ∀ j, q.data ≠ some j → h.blk j = none
  lim : h.lim = lim

omit [DecidableEq L] in
theorem Holds.wf {T : Traits} {lim : Nat} {h : Heap (Frame L)} {q : Queue} {l : List (Frame L)} (hh : Holds T lim h q l) : h.WF := by
  intro j hj
  apply hh.only
  intro he
  have := hh.rep.lt j he
  omega

omit [DecidableEq L] in
theorem Holds.next {T : Traits} {lim : Nat} {h h' : Heap (Frame L)} {q q' : Queue} {l l' : List (Frame L)} (hh : Holds T lim h q l)
    (hr : Queue.Rep T h' q' l') (hf : _root_.Rpp.Frame h q.data h' q'.data) : Holds T lim h' q' l' := by
  refine ⟨hr, ?_, hf.lim_eq.trans hh.lim⟩
  intro j hj
  by_cases c : q.data = some j
  · rcases hf.own with h1 | ⟨_, h1⟩
    · exact absurd (h1.trans c) hj
    · exact h1 j c
  · rw [hf.other j c hj]
    exact hh.only j c

omit [DecidableEq L] in
theorem pop_holds {T : Traits} {lim : Nat} {h : Heap (Frame L)} {q : Queue} {l : List (Frame L)} (hh : Holds T lim h q l)
    (hl : l ≠ []) : ∃ q' h', Queue.pop T q h = .ok (q', h') ∧ Holds T lim h' q' l.tail ∧ q'.cap = q.cap := by
  obtain ⟨q', h', e, r, f, c⟩ := wp_elim (Queue.wp_pop (O := False) hh.rep hl) id
  exact ⟨q', h', e, hh.next r f, c⟩

omit [DecidableEq L] in
theorem push_holds {T : Traits} {lim : Nat} {h : Heap (Frame L)} {q : Queue} {l : List (Frame L)} (hh : Holds T lim h q l)
    (h8 : 8 ≤ lim) (hm : lim ≤ 2 ^ 63) (hc : q.len < q.cap ∨ q.cap = 0) (x : Frame L) :
    ∃ q' h', Queue.push T q x h = .ok (q', h') ∧ Holds T lim h' q' (l ++ [x]) ∧ q'.cap = if q.cap = 0 then 8 else q.cap := by
  obtain ⟨q', h', e, r, f, _⟩ := wp_elim (Queue.wp_push (O := False) (x := x) hh.wf (by rw [hh.lim]; exact hm) hh.rep (by
    intro h1
    rw [hh.lim]
    rcases hc with h2 | h2 <;> omega)) id
  refine ⟨q', h', e, hh.next r f, ?_⟩
  rw [push_cap e]
  have := hh.rep.len_le
  split <;> split <;> (try split) <;> omega

omit [DecidableEq L] in
theorem back_holds {T : Traits} {lim : Nat} {h : Heap (Frame L)} {q : Queue} {l : List (Frame L)} {x : Frame L}
    (hh : Holds T lim h q (l ++ [x])) : Queue.back q h = .ok (x, h) := by
  obtain ⟨y, h', e, h1, h2⟩ := wp_elim (Queue.wp_back (O := False) hh.rep (by simp)) id
  simp at h1
  rw [e, h1, h2]

theorem bind_of {α β γ : Type} {m : M α β} {f : β → M α γ} {h h1 : Heap α} {b : β} (e : m h = .ok (b, h1)) :
    (m >>= f) h = f b h1 := by
  show StateT.bind m f h = _
  simp only [StateT.bind, bind, Except.bind, e]

theorem bind_err {α β γ : Type} {m : M α β} {f : β → M α γ} {h : Heap α} {x : Err} (e : m h = .error x) :
    (m >>= f) h = .error x := by
  show StateT.bind m f h = _
  simp only [StateT.bind, bind, Except.bind, e]

omit [DecidableEq L] in
theorem onBack_ok {T : Traits} {lim : Nat} {h : Heap (Frame L)} {q : Queue} {l : List (Frame L)} {x y : Frame L}
    (hh : Holds T lim h q (l ++ [x])) {f : Frame L → Res (Frame L)} (hf : f x = .ok y) :
    ∃ h', onBack q f h = .ok ((), h') ∧ Holds T lim h' q (l ++ [y]) := by
  unfold onBack
  rw [bind_of (back_holds hh)]
  have h1 : (lift (f x) : M (Frame L) (Frame L)) h = .ok (y, h) := by unfold lift; rw [hf]
  rw [bind_of h1]
  have hlen : q.len - 1 = l.length := by rw [hh.rep.1]; simp
  obtain ⟨_, h', e, r, fr⟩ := wp_elim (Queue.wp_set (O := False) hh.rep (i := q.len - 1) (by rw [hlen]; simp) y) id
  refine ⟨h', e, ?_⟩
  rw [hlen] at r
  have : (l ++ [x]).set l.length y = l ++ [y] := by simp
  rw [this] at r
  exact hh.next r fr

omit [DecidableEq L] in
theorem onBack_err {T : Traits} {lim : Nat} {h : Heap (Frame L)} {q : Queue} {l : List (Frame L)} {x : Frame L} {e : Err}
    (hh : Holds T lim h q (l ++ [x])) {f : Frame L → Res (Frame L)} (hf : f x = .error e) : onBack q f h = .error e := by
  unfold onBack
  rw [bind_of (back_holds hh)]
  exact bind_err (by unfold lift; rw [hf])

/-! ## The thread -/

structure TInv (T : Traits) (root : L) (lim : Nat) (s : Thread) (h : Heap (Frame L)) (rs : List (Rec (Ev L))) : Prop where
  holds : ∃ l, Holds T lim h s.frames l ∧ l.map Except.ok = (latest 8 rs).map (val root)
  cap : s.frames.cap = if rs = [] then 0 else 8
  dur : s.during = isOpen rs
  reg : rs ≠ [] → s.registered = true
  fin : ∀ r ∈ rs.dropLast, r.t₁.isSome = true

theorem tinv_init (T : Traits) (root : L) (lim : Nat) : TInv T root lim {} (Heap.empty lim) [] :=
  ⟨⟨[], ⟨Queue.Rep.nil T _, fun _ _ => rfl, rfl⟩, rfl⟩, rfl, rfl, fun h => absurd rfl h, by simp⟩

theorem map_snoc {α β : Type} {f : α → β} {l : List α} {m : List β} {b : β} (h : l.map f = m ++ [b]) :
    ∃ l' a, l = l' ++ [a] ∧ l'.map f = m ∧ f a = b := by
  rcases List.eq_nil_or_concat l with rfl | ⟨l', a, rfl⟩
  · simp at h
  · simp only [List.concat_eq_append, List.map_append, List.map_cons, List.map_nil] at h
    have := List.append_inj' h rfl
    exact ⟨l', a, by simp, this.1, by simpa using this.2⟩

/-- The queue of a thread that has recorded frames. -/
theorem TInv.last {T : Traits} {root : L} {lim : Nat} {s : Thread} {h : Heap (Frame L)} {ini : List (Rec (Ev L))} {r : Rec (Ev L)}
    (hi : TInv T root lim s h (ini ++ [r])) :
    ∃ l x, Holds T lim h s.frames (l ++ [x]) ∧ l.map Except.ok = (ini.drop (ini.length - 7)).map (val root) ∧ val root r = .ok x := by
  obtain ⟨l, h1, h2⟩ := hi.holds
  rw [latest_snoc, List.map_append, List.map_singleton] at h2
  obtain ⟨l', x, rfl, h3, h4⟩ := map_snoc h2
  exact ⟨l', x, h1, h3, h4.symm⟩

theorem require_ok {α : Type} {b : Bool} (h : Heap α) (hb : b = true) : require b h = .ok ((), h) := by
  subst hb; rfl

theorem require_die {α : Type} {b : Bool} (h : Heap α) (hb : b = false) : (require b : M α Unit) h = .error .die := by
  subst hb; rfl

theorem ready_of {s : Thread} (hr : s.registered = true) : ready s = s := by unfold ready; rw [if_pos hr]

theorem TInv.ready {T : Traits} {root : L} {lim : Nat} {s : Thread} {h : Heap (Frame L)} {rs : List (Rec (Ev L))}
    (hi : TInv T root lim s h rs) : TInv T root lim (ready s) h rs ∧ (Prof.ready s).registered = true := by
  unfold Prof.ready
  by_cases c : s.registered = true
  · rw [if_pos c]; exact ⟨hi, c⟩
  · rw [if_neg c]
    have hrs : rs = [] := Classical.byContradiction fun h => c (hi.reg h)
    subst hrs
    exact ⟨⟨hi.holds, hi.cap, rfl, fun h => absurd rfl h, hi.fin⟩, rfl⟩

/-- What `begin_frame` returns. -/
def since (root : L) (t : W) (rs : List (Rec (Ev L))) : Option W :=
  match rs.getLast? with
  | none => none
  | some r =>
    match val root r with
    | .error _ => none
    | .ok f => (f.nodes[0]?).map fun n => t - n.begin

theorem begin_ok {T : Traits} {root : L} {lim : Nat} {s : Thread} {h : Heap (Frame L)} {rs : List (Rec (Ev L))} (h8 : 8 ≤ lim)
    (hm : lim ≤ 2 ^ 63) (hi : TInv T root lim s h rs) (ho : isOpen rs = false) (t : W) :
    ∃ s' h', beginFrame T root t s h = .ok ((since root t rs, s'), h') ∧ TInv T root lim s' h' (rs ++ [{ t₀ := t }]) := by
  obtain ⟨hi, hreg⟩ := hi.ready
  unfold beginFrame
  generalize Prof.ready s = s at hi hreg
  rw [bind_of (require_ok h (by rw [hi.dur, ho]; rfl))]
  obtain ⟨l, hh, hl⟩ := hi.holds
  have hlen : l.length = min 8 rs.length := by
    have := congrArg List.length hl
    rw [List.length_map, List.length_map, latest_len] at this
    exact this
  have hql : s.frames.len = l.length := hh.rep.1
  have hcap := hi.cap
  -- make room
  have hpop : ∃ q1 h1, (if s.frames.len ≠ 0 ∧ s.frames.len = s.frames.cap then Queue.pop T s.frames else pure s.frames) h = .ok (q1, h1) ∧
      Holds T lim h1 q1 (if rs.length < 8 then l else l.tail) ∧ q1.cap = s.frames.cap := by
    by_cases c : rs.length < 8
    · rw [if_pos c]
      have : ¬ (s.frames.len ≠ 0 ∧ s.frames.len = s.frames.cap) := by
        rintro ⟨h1, h2⟩
        by_cases c2 : rs = []
        · rw [hcap, if_pos c2] at h2; omega
        · rw [hcap, if_neg c2] at h2; omega
      rw [if_neg this]
      exact ⟨_, _, rfl, hh, rfl⟩
    · rw [if_neg c]
      have hne : rs ≠ [] := by rintro rfl; simp at c
      rw [if_neg hne] at hcap
      rw [if_pos ⟨by omega, by omega⟩]
      exact pop_holds hh (by rintro rfl; simp at hlen; omega)
  obtain ⟨q1, h1, e1, hh1, hc1⟩ := hpop
  rw [bind_of e1]
  have hl1 : q1.len < 8 := by
    rw [hh1.rep.1]
    split
    · omega
    · rw [List.length_tail]; omega
  obtain ⟨q2, h2, e2, hh2, hc2⟩ := push_holds hh1 h8 hm (by
    rw [hc1, hcap]
    split
    · exact .inr rfl
    · exact .inl hl1) {}
  rw [bind_of e2]
  obtain ⟨f0, eb, _⟩ := begin_inv root t
  obtain ⟨h3, e3, hh3⟩ := onBack_ok hh2 eb
  rw [bind_of e3]
  have hval : val root { t₀ := t } = .ok f0 := by
    unfold val openFrame
    rw [eb]
    rfl
  have hmap : ((if rs.length < 8 then l else l.tail) ++ [f0]).map Except.ok = (latest 8 (rs ++ [({ t₀ := t } : Rec (Ev L))])).map (val root) := by
    rw [latest_push, List.map_append, List.map_append, List.map_singleton, List.map_singleton, hval]
    congr 1
    split
    · exact hl
    · rw [List.map_tail, List.map_tail, hl]
  have hfinal : TInv T root lim { s with during := true, frames := q2 } h3 (rs ++ [{ t₀ := t }]) := by
    refine ⟨⟨_, hh3, hmap⟩, ?_, ?_, fun _ => hreg, ?_⟩
    · rw [if_neg (by simp)]
      dsimp only
      rw [hc2, hc1, hcap]
      split <;> split <;> omega
    · rw [isOpen_snoc]; rfl
    · rw [List.dropLast_concat]
      intro r hr
      rcases List.eq_nil_or_concat rs with rfl | ⟨ini, z, rfl⟩
      · simp at hr
      · rw [List.concat_eq_append] at hr ho hi
        rcases List.mem_append.1 hr with hr | hr
        · exact hi.fin r (by rw [List.dropLast_concat]; exact hr)
        · rw [List.mem_singleton] at hr
          subst hr
          rw [isOpen_snoc] at ho
          cases hz : r.t₁ with
          | none => rw [hz] at ho; cases ho
          | some _ => rfl
  -- the value returned
  have hq2 : q2.len = (if rs.length < 8 then l else l.tail).length + 1 := by rw [hh3.rep.1]; simp
  rcases List.eq_nil_or_concat rs with rfl | ⟨ini, z, rfl⟩
  · have hl0 : l = [] := by
      apply List.eq_nil_of_length_eq_zero
      rw [hlen]; simp
    subst hl0
    rw [if_neg (show ¬ q2.len > 1 by rw [hq2]; simp)]
    exact ⟨_, _, rfl, hfinal⟩
  · rw [List.concat_eq_append] at *
    obtain ⟨l', x, hh', hl', hx⟩ := hi.last
    have hll : l = l' ++ [x] := by
      have : l.map Except.ok = (l' ++ [x]).map (Except.ok (ε := Err)) := by
        rw [hl, latest_snoc, List.map_append, List.map_append, hl', List.map_singleton, List.map_singleton, hx]
      exact (List.map_inj_right (fun a b h => by cases h; rfl)).1 this
    have hpre : ∃ m, (if (ini ++ [z]).length < 8 then l else l.tail) = m ++ [x] := by
      split
      · exact ⟨l', hll⟩
      · rename_i c
        cases l' with
        | nil =>
          rw [hll] at hlen
          simp at hlen c
          omega
        | cons a l' => exact ⟨l', by rw [hll]; rfl⟩
    obtain ⟨m, hpre⟩ := hpre
    rw [hpre] at hq2 hh3
    rw [if_pos (show q2.len > 1 by rw [hq2]; simp)]
    obtain ⟨y, h4, e4, hy, h34⟩ := wp_elim (Queue.wp_penultimate (O := False) hh3.rep (by simp)) id
    rw [h34] at e4
    have hyx : y = x := by
      rw [hy]
      simp
    subst hyx
    have hne := val_ne hx
    have hpos : 0 < y.nodes.length := List.length_pos_iff.2 hne
    have e5 : (do
        let prev ← Queue.penultimate q2
        require (prev.nodes ≠ [])
        let n ← lift (at' prev.nodes 0)
        pure (some (t - n.begin)) : M (Frame L) (Option W)) h3 = .ok (some (t - y.nodes[0].begin), h3) := by
      rw [bind_of e4, bind_of (require_ok _ (by simpa using hne))]
      have : (lift (at' y.nodes 0) : M (Frame L) (Node L)) h3 = .ok (y.nodes[0], h3) := by
        unfold lift
        rw [at_ok hpos]
      rw [bind_of this]
      rfl
    rw [bind_of e5]
    refine ⟨_, _, ?_, hfinal⟩
    have : since root t (ini ++ [z]) = some (t - y.nodes[0].begin) := by
      unfold since
      simp only [List.getLast?_concat, hx, List.getElem?_eq_getElem hpos]
      rfl
    rw [this]
    rfl

theorem begin_die {T : Traits} {root : L} {lim : Nat} {s : Thread} {h : Heap (Frame L)} {rs : List (Rec (Ev L))}
    (hi : TInv T root lim s h rs) (ho : isOpen rs = true) (t : W) : beginFrame T root t s h = .error .die := by
  obtain ⟨hi, hreg⟩ := hi.ready
  unfold beginFrame
  generalize Prof.ready s = s at hi hreg
  exact bind_err (require_die h (by rw [hi.dur, ho]; rfl))

theorem event_ok {T : Traits} {root : L} {lim : Nat} {s : Thread} {h : Heap (Frame L)} {rs : List (Rec (Ev L))}
    (hi : TInv T root lim s h rs) (e : Ev L) : ∃ s' h', event e s h = .ok (s', h') ∧
      TInv T root lim s' h' (if isOpen rs then onLast rs (fun r => { r with es := r.es ++ [e] }) else rs) := by
  obtain ⟨hi, hreg⟩ := hi.ready
  unfold event
  generalize Prof.ready s = s at hi hreg
  by_cases ho : isOpen rs = true
  · rw [if_pos ho, if_pos (by rw [hi.dur, ho])]
    rcases List.eq_nil_or_concat rs with rfl | ⟨ini, z, rfl⟩
    · cases ho
    · rw [List.concat_eq_append] at *
      obtain ⟨l, x, hh, hl, hx⟩ := hi.last
      rw [isOpen_snoc] at ho
      have hz : z.t₁ = none := by simpa using ho
      unfold val at hx
      rw [hz] at hx
      dsimp only at hx
      obtain ⟨y, hy, _⟩ := openFrame_inv root z.t₀ (z.es ++ [e])
      obtain ⟨h1, e1, hh1⟩ := onBack_ok hh (f := fun f => step f e) (by rw [openFrame_ev hx, hy])
      rw [bind_of e1, onLast_snoc]
      refine ⟨_, _, rfl, ⟨⟨_, hh1, ?_⟩, ?_, ?_, fun _ => hreg, ?_⟩⟩
      · rw [latest_snoc, List.map_append, List.map_append, hl, List.map_singleton, List.map_singleton]
        congr 2
        unfold val
        dsimp only
        rw [hz]
        exact hy.symm
      · rw [hi.cap, if_neg (by simp), if_neg (by simp)]
      · rw [hi.dur, isOpen_snoc, isOpen_snoc]
      · have := hi.fin
        rw [List.dropLast_concat] at this ⊢
        exact this
  · rw [if_neg ho, if_neg (by rw [hi.dur]; simpa using ho)]
    exact ⟨s, h, rfl, hi⟩

theorem fin_step {T : Traits} {root : L} {lim : Nat} {s : Thread} {h : Heap (Frame L)} {rs : List (Rec (Ev L))}
    (hi : TInv T root lim s h rs) (t : W) :
    match act balanced rs (.fin t) with
    | none => endFrame t s h = .error .die
    | some rs' => ∃ s' h', endFrame t s h = .ok (s', h') ∧ TInv T root lim s' h' rs' := by
  unfold endFrame
  rcases List.eq_nil_or_concat rs with rfl | ⟨ini, z, rfl⟩
  · have h1 := hi.dur
    exact bind_err (require_die h (by rw [h1]; simp [isOpen]))
  · rw [List.concat_eq_append] at *
    unfold act
    simp only [List.getLast?_concat]
    have hreg := hi.reg (by simp)
    have hdur := hi.dur
    rw [isOpen_snoc] at hdur
    cases hz : z.t₁ with
    | some t' =>
      rw [if_neg (by simp)]
      exact bind_err (require_die h (by rw [hdur, hz]; simp))
    | none =>
      obtain ⟨l, x, hh, hl, hx⟩ := hi.last
      unfold val at hx
      rw [hz] at hx
      dsimp only at hx
      have hlen : s.frames.len ≠ 0 := by rw [hh.rep.1]; simp
      rw [bind_of (require_ok h (by rw [hdur, hz, hreg]; rfl)), bind_of (require_ok h (by simpa using hlen))]
      by_cases hb : balanced z.es = true
      · rw [if_pos (by simpa using hb)]
        obtain ⟨f, _, _, hf, _⟩ := frame_ok root z.t₀ z.es t (by simpa [balanced] using hb)
        obtain ⟨h1, e1, hh1⟩ := onBack_ok hh (f := finish t) (by rw [openFrame_fin hx, hf])
        rw [bind_of e1, onLast_snoc]
        refine ⟨_, _, rfl, ⟨⟨_, hh1, ?_⟩, ?_, ?_, fun _ => hreg, ?_⟩⟩
        · rw [latest_snoc, List.map_append, List.map_append, hl, List.map_singleton, List.map_singleton]
          congr 2
          exact hf.symm
        · dsimp only
          rw [hi.cap, if_neg (by simp), if_neg (by simp)]
        · rw [isOpen_snoc]; rfl
        · have := hi.fin
          rw [List.dropLast_concat] at this ⊢
          exact this
      · rw [if_neg (by simpa using hb)]
        exact bind_err (onBack_err hh (by rw [openFrame_fin hx, frame_die]; simpa [balanced] using hb))

theorem tstep_ok {T : Traits} {root : L} {lim : Nat} {s : Thread} {h : Heap (Frame L)} {rs : List (Rec (Ev L))} (h8 : 8 ≤ lim)
    (hm : lim ≤ 2 ^ 63) (hi : TInv T root lim s h rs) (o : Op (Ev L)) :
    match act balanced rs o with
    | none => tstep T root s o h = .error .die
    | some rs' => ∃ s' h', tstep T root s o h = .ok (s', h') ∧ TInv T root lim s' h' rs' := by
  cases o with
  | begin t =>
    simp only [act]
    by_cases ho : isOpen rs = true
    · rw [if_pos ho]
      exact bind_err (begin_die hi ho t)
    · rw [if_neg ho]
      obtain ⟨s', h', e, hi'⟩ := begin_ok h8 hm hi (by simpa using ho) t
      refine ⟨s', h', ?_, hi'⟩
      show (beginFrame T root t s >>= fun x => pure x.2) h = _
      rw [bind_of e]
      rfl
  | ev e =>
    obtain ⟨s', h', e1, hi'⟩ := event_ok hi e
    simp only [act]
    by_cases ho : isOpen rs = true
    · rw [if_pos ho] at hi' ⊢
      exact ⟨s', h', e1, hi'⟩
    · rw [if_neg ho] at hi' ⊢
      exact ⟨s', h', e1, hi'⟩
  | fin t => exact fin_step hi t

theorem trun_ok {T : Traits} {root : L} {lim : Nat} (h8 : 8 ≤ lim) (hm : lim ≤ 2 ^ 63) :
    ∀ (os : List (Op (Ev L))) (s : Thread) (h : Heap (Frame L)) (rs : List (Rec (Ev L))), TInv T root lim s h rs →
    match acts balanced rs os with
    | none => trun T root s os h = .error .die
    | some rs' => ∃ s' h', trun T root s os h = .ok (s', h') ∧ TInv T root lim s' h' rs'
  | [], s, h, rs, hi => ⟨s, h, rfl, hi⟩
  | o :: os, s, h, rs, hi => by
    have h1 := tstep_ok h8 hm hi o
    unfold acts
    cases ha : act balanced rs o with
    | none =>
      rw [ha] at h1
      exact bind_err h1
    | some rs' =>
      rw [ha] at h1
      obtain ⟨s', h', e, hi'⟩ := h1
      have h2 := trun_ok h8 hm os s' h' rs' hi'
      dsimp only
      unfold trun
      rw [bind_of e]
      exact h2

omit [DecidableEq L] in
theorem filter_all {ε : Type} {rs : List (Rec ε)} (h : ∀ r ∈ rs, r.t₁.isSome = true) : rs.filter (·.t₁.isSome) = rs :=
  List.filter_eq_self.2 h

theorem timings_ok {T : Traits} {root : L} {lim : Nat} {s : Thread} {h : Heap (Frame L)} {rs : List (Rec (Ev L))}
    (hi : TInv T root lim s h rs) :
    match lastEnded rs with
    | none => timings s h = .ok (none, h)
    | some r => ∃ t₁ f, r.t₁ = some t₁ ∧ frame root r.t₀ r.es t₁ = .ok f ∧ timings s h = .ok (some f, h) := by
  unfold timings
  rcases List.eq_nil_or_concat rs with rfl | ⟨ini, z, rfl⟩
  · obtain ⟨l, hh, hl⟩ := hi.holds
    have hl0 : l = [] := by simpa [latest] using hl
    subst hl0
    have h0 : s.frames.len = 0 := hh.rep.1
    rw [if_neg (by simp [h0]), if_neg (by simp [h0])]
    rfl
  · rw [List.concat_eq_append] at *
    have hdur := hi.dur
    rw [isOpen_snoc] at hdur
    have hfin := hi.fin
    rw [List.dropLast_concat] at hfin
    obtain ⟨l, x, hh, hl, hx⟩ := hi.last
    have hlen : s.frames.len = l.length + 1 := by rw [hh.rep.1]; simp
    unfold lastEnded
    rw [List.filter_append, filter_all hfin]
    cases hz : z.t₁ with
    | some t₁ =>
      rw [hz] at hdur
      rw [if_neg (by simp [hdur]), if_pos (by simp [hdur, hlen])]
      simp only [List.filter_cons, List.filter_nil, hz, Option.isSome_some, if_true, List.getLast?_concat]
      refine ⟨t₁, x, rfl, ?_, ?_⟩
      · unfold val at hx
        rw [hz] at hx
        exact hx
      · rw [bind_of (back_holds hh)]
        rfl
    | none =>
      rw [hz] at hdur
      simp only [List.filter_cons, List.filter_nil, hz, Option.isSome_none, List.append_nil, Bool.false_eq_true, if_false]
      rcases List.eq_nil_or_concat ini with rfl | ⟨ini', y, rfl⟩
      · have : l = [] := by simpa using hl
        subst this
        have hl1 : s.frames.len = 1 := hlen
        rw [if_neg (by simp [hl1]), if_neg (by simp [hdur])]
        rfl
      · rw [List.concat_eq_append] at *
        simp only [List.getLast?_concat]
        have hy := hfin y (by simp)
        cases hy2 : y.t₁ with
        | none => rw [hy2] at hy; cases hy
        | some t₁ =>
          rw [List.drop_append_of_le_length (by simp), List.map_append, List.map_singleton] at hl
          obtain ⟨l', w, rfl, _, hw⟩ := map_snoc hl
          rw [if_pos (by simp [hdur, hlen])]
          refine ⟨t₁, w, rfl, ?_, ?_⟩
          · unfold val at hw
            rw [hy2] at hw
            exact hw.symm
          · obtain ⟨v, h4, e4, hv, rfl⟩ := wp_elim (Queue.wp_penultimate (O := False) hh.rep (by simp)) id
            have : v = w := by rw [hv]; simp
            rw [bind_of e4, this]
            rfl

theorem finalize_ok {T : Traits} {root : L} {lim : Nat} {s : Thread} {h : Heap (Frame L)} {rs : List (Rec (Ev L))}
    (hi : TInv T root lim s h rs) (hc : isOpen rs = false) (t : W) :
    ∃ s' h', finalize T t s h = .ok (s', h') ∧ ∀ j, h'.blk j = none := by
  obtain ⟨l, hh, _⟩ := hi.holds
  obtain ⟨q, h1, e1, _, hf⟩ := wp_elim (Queue.wp_dtor (O := False) hh.wf hh.rep) id
  unfold finalize
  rw [bind_of e1]
  dsimp only
  rw [if_neg (by rw [hi.dur, hc]; simp)]
  refine ⟨_, h1, rfl, fun j => ?_⟩
  by_cases c : s.frames.data = some j
  · rcases hf.own with h2 | ⟨_, h2⟩
    · rw [c] at h2; cases h2
    · exact h2 j c
  · rw [hf.other j c (by simp)]
    exact hh.only j c

theorem finalize_die {T : Traits} {root : L} {lim : Nat} {s : Thread} {h : Heap (Frame L)} {rs : List (Rec (Ev L))}
    (hi : TInv T root lim s h rs) (ho : isOpen rs = true) (t : W) : finalize T t s h = .error .die := by
  obtain ⟨l, hh, _⟩ := hi.holds
  obtain ⟨q, h1, e1, hq, hf⟩ := wp_elim (Queue.wp_dtor (O := False) hh.wf hh.rep) id
  subst hq
  have hreg := hi.reg (by rintro rfl; cases ho)
  unfold finalize
  rw [bind_of e1]
  dsimp only
  rw [if_pos (by rw [hi.dur, ho])]
  apply bind_err
  unfold endFrame
  rw [bind_of (require_ok h1 (by dsimp only; rw [hi.dur, ho, hreg]; rfl))]
  exact bind_err (require_die h1 (by simp [Queue.nil]))

theorem since_quiet {T : Traits} {root : L} {lim : Nat} {s : Thread} {h : Heap (Frame L)} {rs : List (Rec (Ev L))} {t : W}
    (hi : TInv T root lim s h rs) (hq : ∀ r, rs.getLast? = some r → ∀ l, (trace (r.es.map toAct)).count [l] ≤ 1) :
    since root t rs = rs.getLast?.map fun r => t - r.t₀ := by
  unfold since
  rcases List.eq_nil_or_concat rs with rfl | ⟨ini, z, rfl⟩
  · rfl
  · rw [List.concat_eq_append] at *
    obtain ⟨l, x, hh, hl, hx⟩ := hi.last
    have hq := hq z (by simp)
    simp only [List.getLast?_concat, hx, Option.map_some]
    have key : ∀ g : Frame L, Inv z.t₀ g (trace (z.es.map toAct)) → ∃ n, g.nodes[0]? = some n ∧ n.begin = z.t₀ := by
      intro g hg
      have hpos := hg.ti.pos
      have hpos' := hpos
      rw [tree_len] at hpos
      refine ⟨_, List.getElem?_eq_getElem hpos, ?_⟩
      refine (hg.num 0 _ [] (List.getElem?_eq_getElem hpos) (.root hpos') ⟨?_, fun l => hq l⟩).2.2 rfl
      have : (trace (z.es.map toAct)).count [] = 0 := List.count_eq_zero.2 hg.nent
      omega
    have : ∃ n, x.nodes[0]? = some n ∧ n.begin = z.t₀ := by
      unfold val at hx
      cases hz : z.t₁ with
      | none =>
        rw [hz] at hx
        obtain ⟨g, h1, h2⟩ := openFrame_inv root z.t₀ z.es
        rw [show openFrame root z.t₀ z.es = _ from hx] at h1
        cases h1
        exact key x h2
      | some t₁ =>
        rw [hz] at hx
        by_cases hs : (trace (z.es.map toAct)).stack = []
        · obtain ⟨f', g, r, h1, h2, h3, h4, _⟩ := frame_ok root z.t₀ z.es t₁ hs
          rw [show frame root z.t₀ z.es t₁ = _ from hx] at h1
          cases h1
          obtain ⟨n, hn, hb⟩ := key g h2
          rw [h3] at hn
          cases hn
          have hlen := h4.len
          rw [List.length_set] at hlen
          have hpos := h2.ti.pos
          rw [tree_len] at hpos
          have hx0 := List.getElem?_eq_getElem (l := x.nodes) (i := 0) (by omega)
          obtain ⟨m, hm, _, hb2, _⟩ := h4.get hx0
          rcases set_get hm with ⟨_, rfl⟩ | ⟨h0, _⟩
          · exact ⟨_, hx0, by rw [hb2]; exact hb⟩
          · exact absurd rfl h0
        · have hx' : frame root z.t₀ z.es t₁ = .ok x := hx
          rw [frame_die root z.t₀ z.es t₁ hs] at hx'
          cases hx'
    obtain ⟨n, hn, hb⟩ := this
    rw [hn, ← hb]
    rfl

end Rpp.Prof
