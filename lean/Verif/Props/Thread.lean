import Verif.Proof.Thread

/-!
# `Thread` handles: theorems
-/

namespace Rpp.Props
open Rpp Rpp.Thr

/-- C97: whatever a program did before, an operation succeeds exactly if its variables are in scope and, for `join`
and `detach`, hold a thread. In particular no thread is ever joined or detached a second time, which
would be undefined. -/
theorem C97_defined (es : List Ev) (s : St) (h : runAll step St.init es = .ok s) (e : Ev) :
    (∃ s', step s e = .ok s') ↔ Allowed s e := by
  constructor
  · rintro ⟨s', h1⟩; exact ok_allowed h1
  · intro ha
    obtain ⟨s', h1, _⟩ := step_inv (reach_inv es _ s init_inv h) ha
    exact ⟨s', h1⟩

/-- C97: `join` and `detach` of a null handle stop the program. -/
theorem C97_null_dies (s : St) (v : Nat) (hv : s.vars[v]? = some (some none)) :
    step s (.join v) = .error .die ∧ step s (.detach v) = .error .die := by
  constructor <;> simp [step, get_of hv, bind, Except.bind]

/-- C97: a thread neither joined nor detached is in exactly one variable, any other in none; one that was joined
has ended. -/
theorem C97_one_handle (es : List Ev) (s : St) (h : runAll step St.init es = .ok s) (i : Nat) (o : Os)
    (ho : s.os[i]? = some o) :
    (o.own = .joinable → (∃ v, Holds s v i) ∧ ∀ v w, Holds s v i → Holds s w i → v = w) ∧
    (o.own ≠ .joinable → ∀ v, ¬ Holds s v i) ∧ (o.own = .joined → o.ended = true) := by
  have I := reach_inv es _ s init_inv h
  have hc := I.own i
  refine ⟨fun hj => ⟨?_, ?_⟩, fun hj v hv => ?_, I.ended i o ho⟩
  · have h1 : need s.os i = 1 := by unfold need; rw [ho]; obtain ⟨a, b⟩ := o; cases hj; rfl
    obtain ⟨v, hv⟩ := List.getElem?_of_mem (List.count_pos_iff.1 (show 0 < cnt s.vars i by omega))
    exact ⟨v, hv⟩
  · intro v w hv hw
    refine Decidable.byContradiction fun c => ?_
    have h1 : need s.os i ≤ 1 := by unfold need; split <;> omega
    have h2 := cnt_set hv (some none) i
    have h3 : (s.vars.set v (some none))[w]? = some (some (some i)) := by
      rw [List.getElem?_set_ne c]; exact hw
    have h4 := cnt_pos h3
    have h5 : isH (some (some i)) i = 1 := by simp [isH]
    have h6 : isH (some none) i = 0 := by simp [isH]
    omega
  · obtain ⟨e, he⟩ := I.joinable hv
    rw [ho] at he; cases he
    exact hj rfl

/-- C97: when all variables are gone every thread was joined or detached; if nothing was detached, all threads have
ended: none outlives the scope of its handle. -/
theorem C97_none_outlives (es : List Ev) (s : St) (h : runAll step St.init es = .ok s) (hl : AllLeft s) :
    (∀ o ∈ s.os, o.own = .detached ∨ o.own = .joined ∧ o.ended = true) ∧
    ((∀ v, Ev.detach v ∉ es) → ∀ o ∈ s.os, o.ended = true) := by
  have h0 : ∀ o ∈ s.os, o.own = .detached ∨ o.own = .joined ∧ o.ended = true := by
    intro o hm
    obtain ⟨i, ho⟩ := List.getElem?_of_mem hm
    obtain ⟨h1, _, h3⟩ := C97_one_handle es s h i o ho
    cases hw : o.own with
    | joinable =>
      obtain ⟨⟨v, hv⟩, _⟩ := h1 hw
      cases hl _ (List.mem_of_getElem? hv)
    | joined => exact .inr ⟨rfl, h3 hw⟩
    | detached => exact .inl rfl
  refine ⟨h0, fun hn o hm => ?_⟩
  have N := reach_noDet es _ s hn (by intro o h; cases h) h
  rcases h0 o hm with q | q
  · exact absurd q (N o hm)
  · exact q.2

/-- C97: `join` and the end of the scope wait: nothing happens while the thread runs, and once it has ended they
return, the thread is joined and the variable null or gone. -/
theorem C97_join_waits (es : List Ev) (s : St) (h : runAll step St.init es = .ok s) (v i : Nat)
    (hv : Holds s v i) :
    ∃ e, s.os[i]? = some ⟨e, .joinable⟩ ∧
      step s (.join v) = .ok (if e then ⟨s.vars.set v (some none), s.os.set i ⟨true, .joined⟩⟩ else s) ∧
      step s (.leave v) = .ok (if e then ⟨s.vars.set v none, s.os.set i ⟨true, .joined⟩⟩ else s) := by
  obtain ⟨e, he⟩ := (reach_inv es _ s init_inv h).joinable hv
  refine ⟨e, he, ?_, ?_⟩ <;> cases e <;>
    simp [step, get_of hv, dtor, sysJoin, he, bind, Except.bind]

/-- C97: assigning a handle to itself is not harmless: it waits for the thread and leaves the handle null. -/
theorem C97_self_assign_joins (es : List Ev) (s : St) (h : runAll step St.init es = .ok s) (v i : Nat)
    (hv : Holds s v i) :
    ∃ e, s.os[i]? = some ⟨e, .joinable⟩ ∧
      step s (.assign v v) =
        .ok (if e then ⟨s.vars.set v (some none), s.os.set i ⟨true, .joined⟩⟩ else s) := by
  obtain ⟨e, he⟩ := (reach_inv es _ s init_inv h).joinable hv
  have hl : v < s.vars.length := (List.getElem?_eq_some_iff.1 hv).1
  refine ⟨e, he, ?_⟩
  have h2 : (⟨s.vars.set v (some none), s.os.set i ⟨true, .joined⟩⟩ : St).get v = .ok none :=
    get_of (List.getElem?_set_self hl)
  cases e
  · simp [step, get_of hv, dtor, sysJoin, he, bind, Except.bind]
  · simp [step, get_of hv, dtor, sysJoin, he, bind, Except.bind, h2]

/-- Two threads; the first handle is moved and the second assigned over it, which waits for the first thread;
then the second is detached. -/
example : (runAll step St.init [.start, .start, .move 0, .assign 2 1, .fin 0, .assign 2 1, .detach 2,
      .leave 0, .leave 1, .leave 2]).map (fun s => (s.vars, s.os)) =
    .ok ([none, none, none], [⟨true, .joined⟩, ⟨false, .detached⟩]) := by decide +kernel

/-- The first attempt to assign waited. -/
example : (runAll step St.init [.start, .start, .move 0, .assign 2 1]).map (fun s => s.vars) =
    .ok [some none, some (some 1), some (some 0)] := by decide +kernel

/-- No detach: at the end both threads have ended. -/
example : (runAll step St.init [.start, .start, .leave 1, .fin 1, .leave 1, .fin 0, .join 0, .leave 0]).map
      (fun s => (s.vars, s.os)) =
    .ok ([none, none], [⟨true, .joined⟩, ⟨true, .joined⟩]) := by decide +kernel

end Rpp.Props
