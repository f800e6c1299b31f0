import Verif.Proof.Frames

/-!
# C62: the history of frames is bounded

For all sequences of operations of a thread: frames begun and ended, scopes entered and left in any order, in
frames and outside of them, with any clock readings. Memory for eight frames is available.
-/

namespace Rpp.Props

open Rpp.Prof Rpp.Spec.Prof Rpp.Spec.Frames

variable {L : Type} [DecidableEq L]

/-- The program stops exactly when a frame begins in another one, ends without having begun, or ends with
open scopes. Otherwise the thread holds the last eight frames in order (all of them if there are fewer), each with
the content that was recorded for it, in room for eight. -/
theorem C62_history (T : Traits) (root : L) (lim : Nat) (h8 : 8 ≤ lim) (hm : lim ≤ 2 ^ 63) (os : List (Op (Ev L))) :
    match acts (fun es => (trace (es.map toAct)).stack.isEmpty) [] os with
    | none => trun T root {} os (Heap.empty lim) = .error .die
    | some rs => ∃ s h l, trun T root {} os (Heap.empty lim) = .ok (s, h) ∧
        Queue.iterate s.frames 0 s.frames.len h = .ok (l, h) ∧
        l.map .ok = (latest 8 rs).map (fun r => match r.t₁ with
          | some t₁ => frame root r.t₀ r.es t₁
          | none => match begin root r.t₀ {} with
            | .ok f => steps f r.es
            | .error e => .error e) ∧
        s.frames.len = min 8 rs.length ∧ s.frames.cap ≤ 8 := by
  have h1 := trun_ok (T := T) (root := root) h8 hm os _ _ _ (tinv_init T root lim)
  change match acts balanced [] os with
    | none => _
    | some rs => _
  cases ha : acts balanced [] os with
  | none => rw [ha] at h1; exact h1
  | some rs =>
    rw [ha] at h1
    obtain ⟨s, h, e, hi⟩ := h1
    obtain ⟨l, hh, hl⟩ := hi.holds
    obtain ⟨xs, h', e2, hxs, hh'⟩ := wp_elim (Queue.wp_iterate (O := False) hh.rep s.frames.len 0 (by rw [hh.rep.1]; omega)) id
    rw [hxs, hh', List.drop_zero] at e2
    refine ⟨s, h, l, e, e2, ?_, ?_, ?_⟩
    · rw [hl]
      apply List.map_congr_left
      intro r _
      unfold val openFrame
      cases r.t₁ with
      | some t => rfl
      | none => dsimp only; cases begin root r.t₀ {} <;> rfl
    · rw [hh.rep.1, ← latest_len]
      have := congrArg List.length hl
      simpa using this
    · rw [hi.cap]; split <;> omega

/-- What `iterate_timings` shows for a thread is the last frame that ended, if any. -/
theorem C62_timings (T : Traits) (root : L) (lim : Nat) (h8 : 8 ≤ lim) (hm : lim ≤ 2 ^ 63) (os : List (Op (Ev L)))
    (s : Thread) (h : Heap (Prof.Frame L)) (e : trun T root {} os (Heap.empty lim) = .ok (s, h)) :
    ∃ rs, acts (fun es => (trace (es.map toAct)).stack.isEmpty) [] os = some rs ∧
      match lastEnded rs with
      | none => timings s h = .ok (none, h)
      | some r => ∃ t₁ f, r.t₁ = some t₁ ∧ frame root r.t₀ r.es t₁ = .ok f ∧ timings s h = .ok (some f, h) := by
  have h1 := trun_ok (T := T) (root := root) h8 hm os _ _ _ (tinv_init T root lim)
  change ∃ rs, acts balanced [] os = some rs ∧ _
  cases ha : acts balanced [] os with
  | none => rw [ha] at h1; rw [h1] at e; cases e
  | some rs =>
    rw [ha] at h1
    obtain ⟨s', h', e', hi⟩ := h1
    rw [e] at e'
    cases e'
    exact ⟨rs, rfl, timings_ok hi⟩

/-- When the thread ends outside of a frame all memory is given back. -/
theorem C62_finalize (T : Traits) (root : L) (lim : Nat) (h8 : 8 ≤ lim) (hm : lim ≤ 2 ^ 63) (os : List (Op (Ev L)))
    (rs : List (Rec (Ev L))) (hr : acts (fun es => (trace (es.map toAct)).stack.isEmpty) [] os = some rs) (hc : isOpen rs = false) (t : W) :
    ∃ s h s' h', trun T root {} os (Heap.empty lim) = .ok (s, h) ∧ finalize T t s h = .ok (s', h') ∧ ∀ j, h'.blk j = none := by
  have h1 := trun_ok (T := T) (root := root) h8 hm os _ _ _ (tinv_init T root lim)
  change acts balanced [] os = some rs at hr
  rw [hr] at h1
  obtain ⟨s, h, e, hi⟩ := h1
  obtain ⟨s', h', e', hj⟩ := finalize_ok hi hc t
  exact ⟨s, h, s', h', e, e', hj⟩

/-- A thread that ends in a frame (or has `finalize` called in one) stops the program, always: the frames are
dropped before the open one is ended. -/
theorem C62_finalize_dies (T : Traits) (root : L) (lim : Nat) (h8 : 8 ≤ lim) (hm : lim ≤ 2 ^ 63) (os : List (Op (Ev L)))
    (rs : List (Rec (Ev L))) (hr : acts (fun es => (trace (es.map toAct)).stack.isEmpty) [] os = some rs) (ho : isOpen rs = true) (t : W) :
    ∃ s h, trun T root {} os (Heap.empty lim) = .ok (s, h) ∧ finalize T t s h = .error .die := by
  have h1 := trun_ok (T := T) (root := root) h8 hm os _ _ _ (tinv_init T root lim)
  change acts balanced [] os = some rs at hr
  rw [hr] at h1
  obtain ⟨s, h, e, hi⟩ := h1
  exact ⟨s, h, e, finalize_die hi ho t⟩

/-! ## C77: the time since the previous frame -/

/-- `begin_frame` returns the time since the previous frame began, if no scope was entered twice directly
under that frame; nothing for the first frame.

Missing from the full statement: frames in which a scope at the top level was entered twice
(`C77_false`). -/
theorem C77_since_partial (T : Traits) (root : L) (lim : Nat) (h8 : 8 ≤ lim) (hm : lim ≤ 2 ^ 63) (os : List (Op (Ev L)))
    (rs : List (Rec (Ev L))) (hr : acts (fun es => (trace (es.map toAct)).stack.isEmpty) [] os = some rs) (hc : isOpen rs = false) (t : W)
    (hq : ∀ r, rs.getLast? = some r → ∀ l, (trace (r.es.map toAct)).count [l] ≤ 1) :
    ∃ s h s' h', trun T root {} os (Heap.empty lim) = .ok (s, h) ∧
      beginFrame T root t s h = .ok ((rs.getLast?.map fun r => t - r.t₀, s'), h') := by
  have h1 := trun_ok (T := T) (root := root) h8 hm os _ _ _ (tinv_init T root lim)
  change acts balanced [] os = some rs at hr
  rw [hr] at h1
  obtain ⟨s, h, e, hi⟩ := h1
  obtain ⟨s', h', e', _⟩ := begin_ok h8 hm hi hc t
  refine ⟨s, h, s', h', e, ?_⟩
  rw [e', since_quiet hi hq]

/-- Two frames that begin at 0 and 100; in the first one a scope is entered at 10 and again at 40. The time
returned for the second one is 60. -/
theorem C77_false : ∃ (os : List (Op (Ev Nat))),
    (((do let s ← trun ⟨false⟩ 0 {} os
          return (← beginFrame ⟨false⟩ 0 100 s).1) : M (Prof.Frame Nat) (Option W)) (Heap.empty 8)).map (·.1) = .ok (some 60) ∧
    (acts (fun es => (trace (es.map toAct)).stack.isEmpty) [] os).map (fun rs => rs.map (·.t₀)) = some [0] :=
  ⟨[.begin 0, .ev (.enter 7 10), .ev (.exit 20), .ev (.enter 7 40), .ev (.exit 50), .fin 90], by decide +kernel, by decide +kernel⟩

/-- Ten frames; the last eight are kept. -/
def demoFrames : List (Op (Ev Nat)) :=
  ((List.range 10).map (BitVec.ofNat 64)).flatMap fun i => [.begin (100 * i), .ev (.enter 1 (100 * i + 10)), .ev (.exit (100 * i + 11 + i)), .fin (100 * i + 50)]

example : ((trun ⟨false⟩ 0 {} demoFrames >>= fun s => Queue.iterate s.frames 0 s.frames.len) (Heap.empty 8)).map
    (fun x => x.1.map fun f => f.nodes.map (·.heir)) =
    .ok [[50, 3], [50, 4], [50, 5], [50, 6], [50, 7], [50, 8], [50, 9], [50, 10]] := by decide +kernel

example : (acts (fun es => (trace (es.map toAct)).stack.isEmpty) [] demoFrames).map (·.length) = some 10 := by decide +kernel

end Rpp.Props
