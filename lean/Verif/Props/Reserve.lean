import Verif.Proof.Reserve

/-!
# Property C181: room reserved ahead is used

Full statement: after `reserve(n)` a container holds up to `n` elements without moving the ones it has: pointers to elements stay good, and
no more memory is asked for. True of `Vec`, `Queue` and `Heap`; false of `Map`, which uses three quarters of what was reserved and counts an entry again each
time it is overwritten.
-/

namespace Rpp.Props

open Rpp Rpp.Spec

/-- **C181 for vectors.** After any program and `reserve(n)`, any further program that keeps the vector at no more than `n` elements (adding,
removing, resizing, and whatever it likes to other vectors) leaves it in the same block with the same capacity. `reserve` itself gives exactly the
capacity asked for or the one there was before, and moves nothing if there was enough. -/
theorem C181_vec {α : Type} (T : Traits) (d : α) (ops rest : List (VecOp α)) (lim x n : Nat) {os os' : List (Out α)} {s s' : Vars α}
    (hs : vecRun d (fun _ => []) ops = some (os, s)) (hs' : vecRun d s rest = some (os', s')) (hst : Stays d x n s rest)
    (hlim : 2 * (vecDemand ops + n + vecDemand rest) + 8 ≤ lim) :
    ∃ w0 w1 w2, VecWorld.run T d (VecWorld.init lim) ops = .ok (os, w0) ∧
      VecWorld.step T d w0 (.reserve x n) = .ok (.unit, w1) ∧ VecWorld.run T d w1 rest = .ok (os', w2) ∧
      (w1.vars x).cap = max (w0.vars x).cap n ∧ (n ≤ (w0.vars x).cap → (w1.vars x).data = (w0.vars x).data) ∧
      (w2.vars x).data = (w1.vars x).data ∧ (w2.vars x).cap = (w1.vars x).cap := by
  have h0 := VecWorld.run_spec (T := T) (d := d) ops _ _ 0 (VecWorld.init_inv T lim) (by omega)
  rw [hs] at h0
  obtain ⟨w0, e0, I0⟩ := h0
  rw [Nat.zero_add] at I0
  have h1 := VecWorld.step_spec (d := d) I0 (.reserve x n) (by simp only [VecOp.demand]; omega)
  simp only [vecStep] at h1
  obtain ⟨w1, e1, I1⟩ := h1
  have e1' := e1
  simp only [VecWorld.step] at e1'
  obtain ⟨v, h, ev, hv⟩ := VecWorld.on_inv e1'
  obtain ⟨r1, _, r3⟩ := Vec.reserve_inv ev
  rw [← hv] at r1 r3
  simp only [VecOp.demand] at I1
  obtain ⟨w2, e2, _, k1, k2⟩ := VecWorld.run_within rest w1 s _ I1 (by omega) (x := x) (n := n) (by omega) hst hs'
  exact ⟨w0, w1, w2, e0, e1, e2, r1, fun hn => by rw [r3 hn], k1, k2⟩

/-- **C181 for queues.** The same, for programs whose operations are right (`qFine`, see C16). -/
theorem C181_queue {α : Type} [DecidableEq α] (T : Traits) (ops rest : List (QOp α)) (lim x n : Nat) (hM : lim ≤ 2 ^ 63)
    {os os' : List (Out α)} {s s' : Vars α} (hF : qFine T.triv (fun _ => []) ops) (hF' : qFine T.triv s rest)
    (hs : qRun (fun _ => []) ops = some (os, s)) (hs' : qRun s rest = some (os', s')) (hst : QStays x n s rest)
    (hlim : 2 * (qDemand ops + n + qDemand rest) + 8 ≤ lim) :
    ∃ w0 w1 w2, QWorld.run T (QWorld.init lim) ops = .ok (os, w0) ∧
      QWorld.step T w0 (.reserve x n) = .ok (.unit, w1) ∧ QWorld.run T w1 rest = .ok (os', w2) ∧
      (w1.vars x).cap = max (w0.vars x).cap n ∧ (n ≤ (w0.vars x).cap → (w1.vars x).data = (w0.vars x).data) ∧
      (w2.vars x).data = (w1.vars x).data ∧ (w2.vars x).cap = (w1.vars x).cap := by
  have h0 := QWorld.run_spec (T := T) ops _ _ 0 (QWorld.init_inv T lim) (by omega) hM hF
  rw [hs] at h0
  obtain ⟨w0, e0, I0⟩ := h0
  rw [Nat.zero_add] at I0
  have h1 := QWorld.step_spec I0 (.reserve x n) (by simp only [QOp.demand]; omega) hM trivial
  simp only [qStep] at h1
  obtain ⟨w1, e1, I1⟩ := h1
  have e1' := e1
  simp only [QWorld.step] at e1'
  obtain ⟨v, h, ev, hv⟩ := QWorld.on_inv e1'
  obtain ⟨r1, _, r3⟩ := Queue.reserve_inv ev
  rw [← hv] at r1 r3
  simp only [QOp.demand] at I1
  obtain ⟨w2, e2, _, k1, k2⟩ := QWorld.run_within hM rest w1 s _ I1 (by omega) hF' (x := x) (n := n) (by omega) hst hs'
  exact ⟨w0, w1, w2, e0, e1, e2, r1, fun hn => by rw [r3 hn], k1, k2⟩

/-- **C181 for heaps.** The same. That the programs run to their ends is C20. -/
theorem C181_heap {α : Type} (T : Traits) (lt : α → α → Bool) (ops rest : List (HOp α)) (lim n : Nat) {v v1 v2 : Vec} {h h1 h2 : Heap α} {o : Out α}
    (hs : (PHeap.run T lt Vec.nil (Heap.empty lim) ops).2 = .ok (v, h)) (hr : PHeap.step T lt v (.reserve n) h = .ok ((o, v1), h1))
    (hs' : (PHeap.run T lt v1 h1 rest).2 = .ok (v2, h2)) (hst : HStays n v.len rest) :
    PHeap.run T lt Vec.nil (Heap.empty lim) (ops ++ .reserve n :: rest) =
      ((PHeap.run T lt Vec.nil (Heap.empty lim) ops).1 ++ o :: (PHeap.run T lt v1 h1 rest).1, .ok (v2, h2)) ∧
    v1.cap = max v.cap n ∧ (n ≤ v.cap → v1.data = v.data) ∧ v2.data = v1.data ∧ v2.cap = v1.cap := by
  have hr' := hr
  simp only [PHeap.step] at hr'
  obtain ⟨_, _, e1, e2⟩ := M.bind_inv hr'
  cases M.pure_inv e2
  obtain ⟨r1, r2, r3⟩ := PHeap.reserve_inv e1
  obtain ⟨k1, k2⟩ := PHeap.run_within rest (n := n) (by omega) (by rw [r2]; exact hst) hs'
  refine ⟨?_, r1, fun hn => by rw [r3 hn], k1, k2⟩
  have app : ∀ (l : List (HOp α)) (u : Vec) (g : Heap α), (PHeap.run T lt u g l).2 = .ok (v, h) →
      PHeap.run T lt u g (l ++ .reserve n :: rest) = ((PHeap.run T lt u g l).1 ++ .unit :: (PHeap.run T lt v1 h1 rest).1, .ok (v2, h2)) := by
    intro l
    induction l with
    | nil =>
      intro u g e
      cases e
      simp only [List.nil_append, PHeap.run, hr]
      rw [← hs']
    | cons op l ih =>
      intro u g e
      simp only [PHeap.run, List.cons_append] at e ⊢
      cases hp : PHeap.step T lt u op g with
      | error _ => rw [hp] at e; cases e
      | ok p =>
        rw [hp] at e
        simp only at e ⊢
        rw [ih _ _ e]
        rfl
  exact app ops _ _ hs

/-- **C181, partial: maps.** After `reserve(n)` the map has at least that capacity, and inserting keeps it, without asking for memory, as long
as the entries counted stay within three quarters of the capacity. Missing: room for all `n`; see `C181_map_false`. -/
theorem C181_map_partial {K V : Type} [DecidableEq K] {H : K → Nat} (hH : ∀ k, H k < 2 ^ 64) {lim : Nat} (hlim : lim < 2 ^ 60) {d : V} {m : Map K V}
    (hr : Map.Reachable H lim d m) {n : Nat} (h1 : n ≠ 1) (hn : n ≤ lim) (kvs : List (K × V))
    (hk : m.len + kvs.length ≤ max m.cap n / 4 * 3) :
    ∃ m1 m2, Map.reserve lim m n = .ok m1 ∧ m1.cap = max m.cap n ∧ m1.len = m.len ∧
      Map.insertAll H lim m1 kvs = .ok m2 ∧ m2.cap = m1.cap ∧ m2.len = m.len + kvs.length := by
  have hinv := hr.inv ⟨hH⟩ (by omega)
  rcases Map.reserve_ok ⟨hH⟩ (by omega) hinv h1 with ⟨h, _⟩ | ⟨m1, e1, i1, _, l1, c1⟩
  · exact absurd h (by omega)
  have hc : m1.cap = max m.cap n := by rw [c1]; split <;> omega
  obtain ⟨m2, e2, c2, l2⟩ := Map.insertAll_ok ⟨hH⟩ hlim kvs i1 (by rw [i1.us, hc, l1]; exact hk)
  exact ⟨m1, m2, e1, hc, l1, e2, c2, by omega⟩

/-- **The property is false of maps.** With room reserved for four entries the fourth makes the map grow; with room reserved for eight, so does
setting the same entry seven times. -/
theorem C181_map_false :
    (∃ m1 m2 m3, Map.reserve 100 (Map.nil : Map Nat Nat) 4 = .ok m1 ∧ m1.cap = 4 ∧
      Map.insertAll (fun k => 2 ^ 62 * k + 1) 100 m1 [(0, 0), (1, 0), (2, 0)] = .ok m2 ∧ m2.cap = 4 ∧
      Map.insertAll (fun k => 2 ^ 62 * k + 1) 100 m1 [(0, 0), (1, 0), (2, 0), (3, 0)] = .ok m3 ∧ m3.cap = 8) ∧
    ∃ m1 m2, Map.reserve 100 (Map.nil : Map Nat Nat) 8 = .ok m1 ∧ m1.cap = 8 ∧
      Map.insertAll (fun k => 2 ^ 62 * k + 1) 100 m1 (List.replicate 7 (2, 5)) = .ok m2 ∧ m2.cap = 16 := by
  have key : ∀ {n c : Nat} {l : List (Nat × Nat)},
      (Map.reserve 100 (Map.nil : Map Nat Nat) n).toOption.bind
        (fun m1 => (Map.insertAll (fun k => 2 ^ 62 * k + 1) 100 m1 l).toOption.map fun m2 => (m1.cap, m2.cap)) = some (n, c) →
      ∃ m1 m2, Map.reserve 100 (Map.nil : Map Nat Nat) n = .ok m1 ∧ m1.cap = n ∧
        Map.insertAll (fun k => 2 ^ 62 * k + 1) 100 m1 l = .ok m2 ∧ m2.cap = c := by
    intro n c l h
    cases e1 : Map.reserve 100 (Map.nil : Map Nat Nat) n with
    | error _ => rw [e1] at h; cases h
    | ok m1 =>
      rw [e1] at h
      simp only [Except.toOption, Option.bind_some] at h
      cases e2 : Map.insertAll (fun k => 2 ^ 62 * k + 1) 100 m1 l with
      | error _ => rw [e2] at h; cases h
      | ok m2 =>
        rw [e2] at h
        simp only [Option.map_some, Option.some.injEq, Prod.mk.injEq] at h
        exact ⟨m1, m2, rfl, h.1, e2, h.2⟩
  refine ⟨?_, key (by decide +kernel)⟩
  obtain ⟨m1, m2, e1, c1, e2, c2⟩ := key (n := 4) (c := 4) (l := [(0, 0), (1, 0), (2, 0)]) (by decide +kernel)
  obtain ⟨m1', m3, e1', _, e3, c3⟩ := key (n := 4) (c := 8) (l := [(0, 0), (1, 0), (2, 0), (3, 0)]) (by decide +kernel)
  rw [e1] at e1'
  cases e1'
  exact ⟨m1, m2, m3, e1, c1, e2, c2, e3, c3⟩

/-- Non-vacuity: a program that reserves, adds, removes and resizes within the room, and uses another vector. -/
example : Stays 0 0 4 (fun _ => [7]) [.push 0 1, .push 0 2, .fresh 1 3, .resize 0 4, .pop 0, .pushOwn 0 0, .push 1 9] := by
  simp [Stays, vecStep, VecOp.within, VecOp.targets, upd]

/-- Non-vacuity: a queue that goes round and round in the room reserved. -/
example : QStays 0 2 (fun _ => [7]) [.push 0 1, .pop 0, .push 0 2, .pop 0, .push 0 3, .push 1 9] ∧
    qFine false (fun _ => [7]) [.push 0 1, .pop 0, .push 0 2, .pop 0, .push 0 3, .push 1 9] := by
  constructor
  · simp [QStays, qStep, QOp.within, QOp.targets, upd]
  · simp [qFine, QOp.fine, qStep, upd]

/-- Non-vacuity: a heap that reserves room for nine and is filled. -/
example : HStays (α := Nat) 9 1 (List.replicate 8 (.push 4) ++ [.take, .push 2]) ∧
    (PHeap.run ⟨false⟩ (fun a b : Nat => decide (a < b)) Vec.nil (Heap.empty 100)
      ([.push 5, .reserve 9] ++ (List.replicate 8 (.push 4) ++ [.take, .push 2]))).2.toOption.map (fun r => (r.1.data, r.1.cap)) = some (some 1, 9) := by
  constructor
  · simp [HStays, List.replicate]
  · decide +kernel

/-- Non-vacuity: without the reservation the same pushes move the vector: the ninth element does. -/
example : (VecWorld.run ⟨true⟩ 0 (VecWorld.init 100) (List.replicate 8 (.push 0 1))).toOption.map (fun r => (r.2.vars 0).data) = some (some 0) ∧
    (VecWorld.run ⟨true⟩ 0 (VecWorld.init 100) (List.replicate 9 (.push 0 1))).toOption.map (fun r => (r.2.vars 0).data) = some (some 1) ∧
    (VecWorld.run ⟨true⟩ 0 (VecWorld.init 100) (.reserve 0 9 :: List.replicate 9 (.push 0 1))).toOption.map (fun r => (r.2.vars 0).data) =
      some (some 0) := by
  refine ⟨?_, ?_, ?_⟩ <;> decide +kernel

end Rpp.Props
