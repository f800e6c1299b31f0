import Verif.Proof.Own
import Verif.Props.Vec
import Verif.Props.Queue
import Verif.Props.Heap
import Verif.Props.MapMem

/-!
# Elements added to the container they are in

`c.emplace(e)` for an element `e` of `c` itself, on `Vec`, `Queue`, `Heap` and `Map`, and erasure from a `Map`
by a reference to the key that is erased.
-/

namespace Rpp.Props
open Rpp Rpp.Spec

variable {α : Type}

/-- **C137, partial.** After any program on vectors, `v.emplace(v[i])` appends the value of `v[i]` if `v` is
not full. Missing: full vectors, for which it is false (`C137_vec_false`). -/
theorem C137_vec_partial (T : Traits) (d : α) (ops : List (VecOp α)) (lim : Nat)
    (hlim : 2 * vecDemand ops + 8 ≤ lim) {outs : List (Out α)} {s : Vars α}
    (hs : vecRun d (fun _ => []) ops = some (outs, s)) :
    ∃ w, VecWorld.run T d (VecWorld.init lim) ops = .ok (outs, w) ∧
      ∀ x i, (hi : i < (s x).length) → (w.vars x).len ≠ (w.vars x).cap →
        ∃ v' h', Vec.emplaceOwn T (w.vars x) i w.heap = .ok (v', h') ∧ Vec.Rep T h' v' (s x ++ [(s x)[i]]) := by
  have := VecWorld.run_spec (T := T) (d := d) (L := lim) ops _ _ 0 (VecWorld.init_inv T lim) (by omega)
  rw [hs] at this
  obtain ⟨w, e, I⟩ := this
  refine ⟨w, e, fun x i hi hf => ?_⟩
  have r := I.winv.rep x
  obtain ⟨v', h', e', r', _⟩ := wp_elim (Vec.wp_pushOwn (O := False) I.winv.wf r hi (fun h => absurd h hf)) id
  refine ⟨v', h', ?_, r'⟩
  rw [← e']
  have hil : (decide (i < (w.vars x).len)) = true := by simp [r.1, hi]
  unfold Vec.emplaceOwn Vec.pushOwn Vec.push
  rw [if_neg hf]
  obtain ⟨a, h1, e1, rfl, rfl⟩ := wp_elim (Vec.wp_read (O := False) (i := i) r hi
    (Q := fun a h => a = (s x)[i] ∧ h = w.heap) ⟨rfl, rfl⟩) id
  have hlc : (decide ((w.vars x).len < (w.vars x).cap)) = true := by
    have := r.2
    cases hd : (w.vars x).data with
    | none => rw [hd] at this; have := r.1; simp_all
    | some id =>
      rw [hd] at this
      obtain ⟨_, _, tail, _, ht, _⟩ := this
      have := r.1
      simp only [decide_eq_true_eq]; omega
  rw [run_bind_of (require_ok hil), run_bind_of (require_ok hil), run_bind_of e1]
  rw [run_bind_of (m := pure (w.vars x)) rfl, run_bind_of (m := pure (w.vars x)) rfl,
    run_bind_of (require_ok hlc), run_bind_of e1, run_bind_of (require_ok hlc)]

/-- **C137 is false of the code** for every full vector: `v.emplace(v[i])` reads storage that `grow` has
freed, whatever the elements are. -/
theorem C137_vec_false (T : Traits) (d : α) (ops : List (VecOp α)) (lim : Nat)
    (hlim : 2 * vecDemand ops + 8 ≤ lim) {outs : List (Out α)} {s : Vars α}
    (hs : vecRun d (fun _ => []) ops = some (outs, s)) :
    ∃ w, VecWorld.run T d (VecWorld.init lim) ops = .ok (outs, w) ∧
      ∀ x i, i < (s x).length → (w.vars x).len = (w.vars x).cap → max 8 (2 * (w.vars x).cap) ≤ lim →
        Vec.emplaceOwn T (w.vars x) i w.heap = .error .ub := by
  have := VecWorld.run_spec (T := T) (d := d) (L := lim) ops _ _ 0 (VecWorld.init_inv T lim) (by omega)
  rw [hs] at this
  obtain ⟨w, e, I⟩ := this
  refine ⟨w, e, fun x i hi hf hl => ?_⟩
  have r := I.winv.rep x
  have hil : (decide (i < (w.vars x).len)) = true := by simp [r.1, hi]
  obtain ⟨v1, h1, e1, r1, f1, c1, _⟩ := wp_elim (Vec.wp_grow (O := False) I.winv.wf r
    (by rw [I.lim]; omega)) id
  obtain ⟨id, b, hd, hb, hx⟩ := r.get hi
  have hdead := Vec.grow_dead I.winv.wf r e1 hd
  unfold Vec.emplaceOwn
  rw [run_bind_of (require_ok hil), if_pos hf, run_bind_of e1,
    run_bind_of (require_ok (by have := r.1; have := r1.1; simp only [decide_eq_true_eq]; omega)), hd]
  exact run_bind_err (readAt_dead hdead)

/-- **C137, partial.** After any program on queues, `q.emplace(q[i])` is `q.push(q[i])` (what that does is
C16) if `q` is not full. Missing: full queues, for which it is false (`C137_queue_false`). -/
theorem C137_queue_partial [DecidableEq α] (T : Traits) (ops : List (QOp α)) (lim : Nat)
    (hlim : 2 * qDemand ops + 8 ≤ lim) (hM : lim ≤ 2 ^ 63) (hp : ∀ op ∈ ops, QOp.plain op = true)
    {outs : List (Out α)} {s : Vars α} (hs : qRun (fun _ => []) ops = some (outs, s)) :
    ∃ w, QWorld.run T (QWorld.init lim) ops = .ok (outs, w) ∧
      ∀ x i, i < (s x).length → (w.vars x).len ≠ (w.vars x).cap →
        Queue.emplaceOwn T (w.vars x) i w.heap = Queue.pushOwn T (w.vars x) i w.heap ∧
        ∃ r, Queue.pushOwn T (w.vars x) i w.heap = .ok r := by
  have := QWorld.run_spec (T := T) (L := lim) ops _ _ 0 (QWorld.init_inv T lim) (by omega) hM
    (qFine_of_plain T.triv ops _ hp)
  rw [hs] at this
  obtain ⟨w, e, I⟩ := this
  refine ⟨w, e, fun x i hi hf => ?_⟩
  have r := I.winv.rep x
  obtain ⟨v', h', e', r', _⟩ := wp_elim (Queue.wp_pushOwn (O := False) I.winv.wf (by rw [I.lim]; exact hM) r hi
    (fun h => absurd h hf)) id
  refine ⟨?_, _, e'⟩
  have hil : (decide (i < (w.vars x).len)) = true := by simp [r.1, hi]
  obtain ⟨a, h1, e1, rfl, rfl⟩ := wp_elim (Queue.wp_get (O := False) r hi) id
  unfold Queue.emplaceOwn Queue.pushOwn Queue.push
  rw [if_neg hf, run_bind_of (require_ok hil), run_bind_of e1]
  unfold Queue.get at e1
  rw [run_bind_of (require_ok hil)] at e1
  rw [run_bind_of (m := pure (w.vars x)) rfl, run_bind_of (m := pure (w.vars x)) rfl, run_bind_of e1]

/-- **C137 is false of the code** for every full queue. -/
theorem C137_queue_false [DecidableEq α] (T : Traits) (ops : List (QOp α)) (lim : Nat)
    (hlim : 2 * qDemand ops + 8 ≤ lim) (hM : lim ≤ 2 ^ 63) (hp : ∀ op ∈ ops, QOp.plain op = true)
    {outs : List (Out α)} {s : Vars α} (hs : qRun (fun _ => []) ops = some (outs, s)) :
    ∃ w, QWorld.run T (QWorld.init lim) ops = .ok (outs, w) ∧
      ∀ x i, i < (s x).length → (w.vars x).len = (w.vars x).cap → max 8 (2 * (w.vars x).cap) ≤ lim →
        Queue.emplaceOwn T (w.vars x) i w.heap = .error .ub := by
  have := QWorld.run_spec (T := T) (L := lim) ops _ _ 0 (QWorld.init_inv T lim) (by omega) hM
    (qFine_of_plain T.triv ops _ hp)
  rw [hs] at this
  obtain ⟨w, e, I⟩ := this
  refine ⟨w, e, fun x i hi hf hl => ?_⟩
  have r := I.winv.rep x
  have hm : w.heap.lim ≤ 2 ^ 63 := by rw [I.lim]; exact hM
  have hil : (decide (i < (w.vars x).len)) = true := by simp [r.1, hi]
  obtain ⟨v1, h1, e1, r1, f1, c1, _⟩ := wp_elim (Queue.wp_grow (O := False) I.winv.wf hm r
    (by rw [I.lim]; omega)) id
  obtain ⟨id, b, hd, _⟩ := r.buf (fun e => by simp [e] at hi)
  have hdead := Queue.grow_dead I.winv.wf hm r e1 hd
  unfold Queue.emplaceOwn
  rw [run_bind_of (require_ok hil), if_pos hf, run_bind_of e1, hd]
  exact run_bind_err (readAt_dead hdead)

/-- **C137, partial.** `h.emplace(e)` for the `i`th element `e` of the heap's buffer is a push of the value of
`e` (what that does is C20) if the heap is not full. Missing: full heaps, for which it is false
(`C137_heap_false`). -/
theorem C137_heap_partial (T : Traits) (lt : α → α → Bool) (h : Heap α) (v : Vec) (l : List α) (i : Nat)
    (hrep : Vec.Rep T h v l) (hi : i < l.length) (hf : v.len ≠ v.cap) :
    PHeap.emplaceOwn T lt v i h = PHeap.push T lt v l[i] h := by
  obtain ⟨a, h1, e1, rfl, rfl⟩ := wp_elim (Vec.wp_read (O := False) (i := i) hrep hi
    (Q := fun a h' => a = l[i] ∧ h' = h) ⟨rfl, rfl⟩) id
  unfold PHeap.emplaceOwn PHeap.push
  rw [if_neg hf, run_bind_of (m := pure v) rfl, run_bind_of (m := pure v) rfl, run_bind_of e1]

/-- **C137 is false of the code** for every full heap. -/
theorem C137_heap_false (T : Traits) (lt : α → α → Bool) (h : Heap α) (v : Vec) (l : List α) (i : Nat)
    (hw : h.WF) (hrep : Vec.Rep T h v l) (hi : i < l.length) (hf : v.len = v.cap)
    (hm : max 8 (2 * v.cap) ≤ h.lim) : PHeap.emplaceOwn T lt v i h = .error .ub := by
  have hg := wp_elim (Vec.wp_grow (O := False) hw hrep (by omega)) id
  obtain ⟨v1, h1, e1, r1, f1, c1, _⟩ := hg
  obtain ⟨id, b, hd, hb, hx⟩ := hrep.get hi
  have hdead := Vec.grow_dead hw hrep e1 hd
  have e2 : PHeap.grow T v h = .ok (v1, h1) := (PHeap.reserve_eq hrep _).trans e1
  unfold PHeap.emplaceOwn
  rw [if_pos hf, run_bind_of e2, hd]
  exact run_bind_err (readAt_dead hdead)

section
open MapMem
variable {K V : Type} [DecidableEq K]

/-- **C137, partial.** `m.emplace(k, r)` with `r` a reference to a value of `m` is `m.insert(k, v)` for the value
`v` that `r` refers to (what that does is C22 and C93), if the map is not full. Missing: full maps, for
which it is false (`C137_map_false`). -/
theorem C137_map_partial (fuel : Nat → Nat) (H : K → Nat) (lim : Nat) (m : LMap K V) (k : K) (i : Nat) {c : Cell K V}
    {k' : K} {v : V} (hc : m.data[i]? = some c) (hv : c.data = some (k', v)) (hf : m.len ≠ m.usable) :
    emplaceOwn fuel H lim m k i = MapMem.insert fuel H lim m k v := by
  have e : valAt m i = .ok v := by simp only [valAt, hc, valOf, hv]
  unfold emplaceOwn MapMem.insert
  funext l
  rw [if_neg hf, sbind_of (m := pure m) rfl, sbind_of (m := pure m) rfl, if_neg (fun h => hf h.1), e]
  rfl

/-- **C137 is false of the code** for every full map: whenever an insertion of a value from elsewhere would
succeed, `emplace` of a value of the map itself reads freed storage. -/
theorem C137_map_false (fuel : Nat → Nat) (H : K → Nat) (lim : Nat) (m : LMap K V) (k : K) (i : Nat) (v : V)
    (l : Ledger K V) (hf : m.len = m.usable) {r} (hr : MapMem.insert fuel H lim m k v l = .ok r) :
    emplaceOwn fuel H lim m k i l = .error .ub := by
  unfold MapMem.insert at hr
  rw [if_pos hf] at hr
  obtain ⟨m1, l1, e1, _⟩ := sbind_ok hr
  unfold emplaceOwn
  rw [if_pos hf, sbind_of e1, if_pos ⟨hf, by split <;> omega⟩]
  rfl

/-- **C137.** Erasing an entry of a map through a reference to that entry's own key does what erasing the key
from elsewhere does: the key is not used after it has been destroyed. -/
theorem C137_erase (fuel : Nat → Nat) (H : K → Nat) (m : LMap K V) (j : Nat) {c : Cell K V} {k : K} {v : V}
    (hc : m.data[j]? = some c) (hv : c.data = some (k, v)) :
    try_eraseOwn fuel H m j = try_erase fuel H m k := by
  have e : keyOf c = .ok k := by simp only [keyOf, hv]
  unfold try_eraseOwn try_erase
  split
  · rfl
  · rw [hc]
    dsimp only
    rw [e]
    funext l
    rw [sbind_of (m := pureRes (.ok k)) rfl]
    simp only [eraseLoopOwn_eq hc e]
    rfl

end

/-- Eight elements fill a vector and a queue made by pushing; the ninth emplaced from within is `ub`, while a
vector with room takes it. -/
example : ((do
    let (_, w) ← VecWorld.run ⟨false⟩ 0 (VecWorld.init 100) ((List.range 8).map (fun i => VecOp.push 0 i))
    let (v, _) ← Vec.emplaceOwn ⟨false⟩ (w.vars 0) 0 w.heap
    return v.len) = (.error .ub : Res Nat)) ∧
  ((do
    let (_, w) ← VecWorld.run ⟨false⟩ 0 (VecWorld.init 100) ((List.range 7).map (fun i => VecOp.push 0 i))
    let (v, h) ← Vec.emplaceOwn ⟨false⟩ (w.vars 0) 2 w.heap
    return (← Vec.iterate v 0 v.len h).1) = (.ok [0, 1, 2, 3, 4, 5, 6, 2] : Res (List Nat))) ∧
  ((do
    let (_, w) ← QWorld.run ⟨false⟩ (QWorld.init 100) ((List.range 8).map (fun i => QOp.push 0 i))
    let (v, _) ← Queue.emplaceOwn ⟨false⟩ (w.vars 0) 0 w.heap
    return v.len) = (.error .ub : Res Nat)) ∧
  ((do
    let (_, w) ← QWorld.run ⟨false⟩ (QWorld.init 100)
      ((List.range 8).map (fun i => QOp.push 0 i) ++ [.pop 0, .pop 0])
    let (v, h) ← Queue.emplaceOwn ⟨false⟩ (w.vars 0) 1 w.heap
    return (← Queue.iterate v 0 v.len h).1) = (.ok [2, 3, 4, 5, 6, 7, 3] : Res (List Nat))) := by
  decide +kernel

/-- A map with room for three: the fourth entry emplaced from within is `ub`; the third is fine. -/
example :
    ((do
      let m ← MapMem.withCapacity 100 4
      let (m, i) ← MapMem.insert (· + 2) (fun k : Nat => k * 2 ^ 62 + 1) 100 m 0 10
      let (m, _) ← MapMem.insert (· + 2) (fun k : Nat => k * 2 ^ 62 + 1) 100 m 1 11
      let (m, _) ← MapMem.emplaceOwn (· + 2) (fun k : Nat => k * 2 ^ 62 + 1) 100 m 2 i
      let (m, _) ← MapMem.emplaceOwn (· + 2) (fun k : Nat => k * 2 ^ 62 + 1) 100 m 3 i
      return m.len : MapMem.S Nat Nat Nat) {}).map Prod.fst = .error .ub ∧
    ((do
      let m ← MapMem.withCapacity 100 4
      let (m, i) ← MapMem.insert (· + 2) (fun k : Nat => k * 2 ^ 62 + 1) 100 m 0 10
      let (m, _) ← MapMem.insert (· + 2) (fun k : Nat => k * 2 ^ 62 + 1) 100 m 1 11
      let (m, j) ← MapMem.emplaceOwn (· + 2) (fun k : Nat => k * 2 ^ 62 + 1) 100 m 2 i
      let (m, _) ← MapMem.try_eraseOwn (· + 2) (fun k : Nat => k * 2 ^ 62 + 1) m i
      let v ← MapMem.pureRes (MapMem.valAt m j)
      return (m.len, v) : MapMem.S Nat Nat (Nat × Nat)) {}).map Prod.fst = .ok (2, 10) := by
  decide +kernel

/-- Eight elements fill a heap. -/
example : ((PHeap.run ⟨false⟩ (fun a b : Nat => decide (a < b)) Vec.nil (Heap.empty 100)
    ((List.range 8).map HOp.push)).2.bind (fun p =>
      (PHeap.emplaceOwn ⟨false⟩ (fun a b : Nat => decide (a < b)) p.1 0 p.2).map (fun q => q.1.len))) = .error .ub ∧
  ((PHeap.run ⟨false⟩ (fun a b : Nat => decide (a < b)) Vec.nil (Heap.empty 100)
    ((List.range 7).map HOp.push)).2.bind (fun p =>
      (PHeap.emplaceOwn ⟨false⟩ (fun a b : Nat => decide (a < b)) p.1 3 p.2).map (fun q => q.1.len))) = .ok 8 := by
  decide +kernel

end Rpp.Props
