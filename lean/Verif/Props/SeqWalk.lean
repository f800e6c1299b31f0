import Verif.Proof.SeqWalk

/-!
# C174: changing a vector or a queue while iterating over it

Full statement: a loop over a vector or a queue whose body adds and removes elements is defined, and visits every element that was
there at the start and is not removed before its turn, once and in order.
-/

namespace Rpp.Props

open Rpp Rpp.Spec

variable {α : Type _}

/-- **C174, vectors, the body adds.** After any program, a loop over a vector whose body adds any elements it likes visits exactly the
elements that were there, and leaves them with the new ones behind, if what is added before the last turn fits into the
capacity. If it does not, the loop reads storage that was given back. -/
theorem C174_vec_push (T : Traits) (d : α) (ops : List (VecOp α)) (lim : Nat) (ys : α → List α) {x : Nat}
    {os : List (Out α)} {s : Vars α} (hs : vecRun d (fun _ => []) ops = some (os, s)) (hops : 2 * vecDemand ops + 8 ≤ lim)
    (hlim : 2 * ((s x).length + ((s x).flatMap ys).length) + 8 ≤ lim) :
    ∃ w, VecWorld.run T d (VecWorld.init lim) ops = .ok (os, w) ∧
      ((s x).length + ((s x).dropLast.flatMap ys).length ≤ (w.vars x).cap →
        ∃ v' h', Vec.walk T (fun a => (ys a).map .push) (w.vars x) w.heap = .ok ((s x, v'), h') ∧
          Vec.iterate v' 0 v'.len h' = .ok (s x ++ (s x).flatMap ys, h')) ∧
      ((w.vars x).cap < (s x).length + ((s x).dropLast.flatMap ys).length →
        Vec.walk T (fun a => (ys a).map .push) (w.vars x) w.heap = .error .ub) := by
  have hspec := VecWorld.run_spec (T := T) (d := d) (L := lim) ops _ _ 0 (VecWorld.init_inv T lim) (by omega)
  simp only [hs] at hspec
  obtain ⟨w, e0, I⟩ := hspec
  have r := I.winv.rep x
  have hm := I.lim
  refine ⟨w, e0, ?_⟩
  unfold Vec.walk
  cases hd : (w.vars x).data with
  | none =>
    have hn : s x = [] := by
      have := r.2
      simp only [hd] at this
      exact this.2
    rw [hn] at r
    have hl := r.1
    simp only [List.length_nil] at hl
    rw [hn, hl]
    refine ⟨fun _ => ⟨w.vars x, w.heap, rfl, by rw [hl]; rfl⟩, fun h => by simp at h⟩
  | some j =>
    have := Vec.walkLoop_push ys (j := j) (s x) [] [] I.winv.wf (by simpa using r) (fun _ => hd) (by simpa [hm] using hlim)
    simp only [List.nil_append, List.append_nil, List.length_nil, ← r.1] at this
    rw [r.1] at this
    refine ⟨fun h => ?_, fun h => ?_⟩
    · obtain ⟨v', h', e, r'⟩ := this.1 h
      obtain ⟨b, h2, e2, rfl, rfl⟩ := wp_elim (Vec.wp_iterate (O := False) r' v'.len 0 (by have := r'.1; omega)) id
      exact ⟨v', h2, by rw [r.1]; exact e, e2⟩
    · rw [r.1]; exact this.2 h

/-- **C174, vectors, partial.** After any program, a loop over a vector whose body adds, removes and clears behaves as the
same loop over a list, as long as each turn finds an element in its place and all that is added, removed or not, fits into the capacity. Missing: the other
cases; see `C174_vec_push` and `C174_vec_false`. -/
theorem C174_vec_partial (T : Traits) (d : α) (ops : List (VecOp α)) (lim : Nat) (body : α → List (Act α)) {x : Nat}
    {os : List (Out α)} {s : Vars α} (hs : vecRun d (fun _ => []) ops = some (os, s)) (hops : 2 * vecDemand ops + 8 ≤ lim)
    {vis l' : List α} (hv : seen List.dropLast body 0 (s x).length (s x) = some (vis, l')) :
    ∃ w, VecWorld.run T d (VecWorld.init lim) ops = .ok (os, w) ∧
      ((s x).length + pushes (vis.flatMap body) ≤ (w.vars x).cap →
        ∃ v' h', Vec.walk T body (w.vars x) w.heap = .ok ((vis, v'), h') ∧ Vec.iterate v' 0 v'.len h' = .ok (l', h')) := by
  have hspec := VecWorld.run_spec (T := T) (d := d) (L := lim) ops _ _ 0 (VecWorld.init_inv T lim) (by omega)
  simp only [hs] at hspec
  obtain ⟨w, e0, I⟩ := hspec
  have r := I.winv.rep x
  refine ⟨w, e0, fun h => ?_⟩
  obtain ⟨v', h', e, r'⟩ := Vec.walkLoop_room (s x).length 0 I.winv.wf r rfl hv h
  obtain ⟨b, h2, e2, rfl, rfl⟩ := wp_elim (Vec.wp_iterate (O := False) r' v'.len 0 (by have := r'.1; omega)) id
  exact ⟨v', h2, by unfold Vec.walk; rw [r.1]; exact e, e2⟩

/-- **C174, queues, partial.** After any program, a loop over a queue whose body adds, removes and clears behaves as the
same loop over a list, as long as each turn finds an element in its place. There is no condition on the capacity. Missing: turns that find
no element; see `C174_queue_false`. -/
theorem C174_queue_partial [DecidableEq α] (T : Traits) (ops : List (QOp α)) (lim : Nat) (hM : lim ≤ 2 ^ 63) (body : α → List (Act α)) {x : Nat}
    (hF : qFine T.triv (fun _ => []) ops)
    {os : List (Out α)} {s : Vars α} (hs : qRun (fun _ => []) ops = some (os, s)) (hops : 2 * qDemand ops + 8 ≤ lim)
    {vis l' : List α} (hv : seen List.tail body 0 (s x).length (s x) = some (vis, l'))
    (hlim : 2 * ((s x).length + pushes (vis.flatMap body)) + 8 ≤ lim) :
    ∃ w q' h', QWorld.run T (QWorld.init lim) ops = .ok (os, w) ∧
      Queue.walk T body (w.vars x) w.heap = .ok ((vis, q'), h') ∧ Queue.iterate q' 0 q'.len h' = .ok (l', h') := by
  have hspec := QWorld.run_spec (T := T) (L := lim) ops _ _ 0 (QWorld.init_inv T lim) (by omega) hM hF
  simp only [hs] at hspec
  obtain ⟨w, e0, I⟩ := hspec
  have r := I.winv.rep x
  have hm := I.lim
  obtain ⟨q', h', e, r'⟩ := Queue.walkLoop_ok (s x).length 0 I.winv.wf (by rw [hm]; exact hM) r hv (by rw [hm]; exact hlim)
  obtain ⟨b, h2, e2, rfl, rfl⟩ := wp_elim (Queue.wp_iterate (O := False) r' q'.len 0 (by have := r'.1; omega)) id
  exact ⟨w, q', h2, e0, by unfold Queue.walk; rw [r.1]; exact e, e2⟩

/-- **C174, queues, the body adds.** After any program, a loop over a queue whose body adds any elements it likes visits
exactly the elements that were there, and leaves them with the new ones behind, whether the queue has to grow or not. -/
theorem C174_queue_push [DecidableEq α] (T : Traits) (ops : List (QOp α)) (lim : Nat) (hM : lim ≤ 2 ^ 63) (ys : α → List α) {x : Nat}
    (hF : qFine T.triv (fun _ => []) ops)
    {os : List (Out α)} {s : Vars α} (hs : qRun (fun _ => []) ops = some (os, s)) (hops : 2 * qDemand ops + 8 ≤ lim)
    (hlim : 2 * ((s x).length + ((s x).flatMap ys).length) + 8 ≤ lim) :
    ∃ w q' h', QWorld.run T (QWorld.init lim) ops = .ok (os, w) ∧
      Queue.walk T (fun a => (ys a).map .push) (w.vars x) w.heap = .ok ((s x, q'), h') ∧
      Queue.iterate q' 0 q'.len h' = .ok (s x ++ (s x).flatMap ys, h') := by
  refine C174_queue_partial T ops lim hM _ hF hs hops (by simpa using seen_push ys (s x) [] []) ?_
  have : (s x).flatMap (fun a => (ys a).map Act.push) = ((s x).flatMap ys).map Act.push := by
    rw [List.map_flatMap]
  rw [this, pushes_map]
  exact hlim

/-- What loops that remove see, as a list would have it: a loop over a vector that removes the last element in each turn finds nothing
in the later places, a loop over a queue that removes the first skips every second. -/
example : seen List.dropLast (fun _ => [.pop]) 0 2 [1, 2, 3] = some ([1, 2], [1]) ∧
    seen List.dropLast (fun _ => [.pop]) 0 3 [1, 2, 3] = none ∧
    seen List.tail (fun n => if n < 3 then [.pop, .push (n + 10)] else []) 0 4 [1, 2, 3, 4] = some ([1, 3, 4, 11], [2, 3, 4, 11]) := by
  decide

/-- A loop over a vector. -/
def vecLoop (T : Traits) (body : Nat → List (Act Nat)) (n : Nat) : Res (List Nat) := do
  let (_, w) ← VecWorld.run T 0 (VecWorld.init 100) ((List.range n).map (fun i => VecOp.push 0 i))
  let ((l, _), _) ← Vec.walk T body (w.vars 0) w.heap
  return l

/-- A loop over a queue. -/
def queueLoop (T : Traits) (body : Nat → List (Act Nat)) (n : Nat) : Res (List Nat) := do
  let (_, w) ← QWorld.run T (QWorld.init 100) ((List.range n).map (fun i => QOp.push 0 i))
  let ((l, _), _) ← Queue.walk T body (w.vars 0) w.heap
  return l

/-- **C174 is false of vectors.** A loop over a full vector that adds one element in its first turn reads storage that was given
back; over a vector with room it does not. A loop that removes elements from the end visits those that are gone: for elements that own
something that is undefined, plain data is still found. -/
theorem C174_vec_false :
    vecLoop ⟨true⟩ (fun n => if n = 0 then [.push 7] else []) 8 = .error .ub ∧
    vecLoop ⟨true⟩ (fun n => if n = 0 then [.push 7] else []) 7 = .ok [0, 1, 2, 3, 4, 5, 6] ∧
    vecLoop ⟨false⟩ (fun _ => [.pop]) 3 = .error .ub ∧
    vecLoop ⟨true⟩ (fun _ => [.pop]) 3 = .ok [0, 1, 2] ∧
    vecLoop ⟨true⟩ (fun _ => [.clear]) 3 = .ok [0, 1, 2] := by
  decide +kernel

/-- **C174 is false of queues.** The loop that takes the first element out in each turn skips every second element and then reads
slots that hold no element. If as many are added as removed, it ends, having visited elements that were not there at the start,
and not all that were. -/
theorem C174_queue_false :
    queueLoop ⟨true⟩ (fun _ => [.pop]) 4 = .error .ub ∧
    queueLoop ⟨false⟩ (fun _ => [.pop]) 4 = .error .ub ∧
    queueLoop ⟨true⟩ (fun n => [.pop, .push (n + 10)]) 4 = .ok [0, 2, 10, 20] ∧
    queueLoop ⟨true⟩ (fun n => if n = 0 then [.push 7] else []) 8 = .ok [0, 1, 2, 3, 4, 5, 6, 7] := by
  decide +kernel

/-- `C174_vec_push` and `C174_queue_push` speak of such loops: one with eight elements, and additions beyond the capacity. -/
example : (vecRun 0 (fun _ => []) ((List.range 8).map (fun i => VecOp.push 0 i))).map (fun r => r.2 0) = some [0, 1, 2, 3, 4, 5, 6, 7] ∧
    (qRun (fun _ => []) ((List.range 8).map (fun i => QOp.push 0 i))).map (fun r => r.2 0) = some [0, 1, 2, 3, 4, 5, 6, 7] := by
  decide +kernel

end Rpp.Props
