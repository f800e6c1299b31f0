import Verif.Proof.ProfileBook

/-!
# C61: call counts and times of the profiler

For all lists of `enter` and `exit` events and all clock readings.
-/

namespace Rpp.Props

open Rpp.Prof Rpp.Spec.Prof

variable {L : Type} [DecidableEq L]

/-- The tree of a frame has exactly one node for each call path that was entered, besides the root, and each
node lists its children once each. A frame that ends inside a scope stops the program. -/
theorem C61_tree (root : L) (t₀ : W) (es : List (Ev L)) (t₁ : W) :
    ((trace (es.map toAct)).stack ≠ [] ∧ frame root t₀ es t₁ = .error .die) ∨
    ((trace (es.map toAct)).stack = [] ∧ ∃ f, frame root t₀ es t₁ = .ok f ∧
      (∀ i, i < f.nodes.length → ∃ p, PathOf (tree f.nodes) i p) ∧
      (∀ p, (p = [] ∨ p ∈ (trace (es.map toAct)).enters) ↔ ∃ i, PathOf (tree f.nodes) i p) ∧
      (∀ i j p, PathOf (tree f.nodes) i p → PathOf (tree f.nodes) j p → i = j) ∧
      ∀ i n, f.nodes[i]? = some n → n.children.Nodup ∧
        ∀ j, j ∈ n.children ↔ j ≠ 0 ∧ ∃ m, f.nodes[j]? = some m ∧ m.parent = i) := by
  by_cases hs : (trace (es.map toAct)).stack = []
  · obtain ⟨f, g, r, h1, h2, h3, h4, h5, _⟩ := frame_ok root t₀ es t₁ hs
    refine .inr ⟨hs, f, h1, ?_, ?_, ?_, ?_⟩
    · intro i hi
      rw [h5]
      exact h2.ti.ex i (by rw [← h5, tree_len]; exact hi)
    · intro p
      rw [h5]
      constructor
      · rintro (rfl | hp)
        · exact ⟨0, .root h2.ti.pos⟩
        · exact h2.ent p hp
      · rintro ⟨i, hi⟩
        exact h2.back i p hi
    · intro i j p hi hj
      rw [h5] at hi hj
      exact h2.ti.inj hi hj
    · intro i n hn
      obtain ⟨m, hm, _, _, _, _, _, _, hc⟩ := h4.get hn
      have : n.children = kids (tree g.nodes) i := by
        rw [hc]
        rcases set_get hm with ⟨rfl, rfl⟩ | ⟨_, hm⟩
        · exact h2.kid _ r h3
        · exact h2.kid _ _ hm
      rw [this]
      refine ⟨kids_nodup _ _, fun j => ?_⟩
      rw [mem_kids, ← h5]
      refine and_congr_right fun _ => ?_
      constructor
      · rintro ⟨l, hl⟩
        obtain ⟨m, hm, _, hp⟩ := get_of_tree hl
        exact ⟨m, hm, hp⟩
      · rintro ⟨k, hk, hk2⟩
        exact ⟨k.loc, hk2 ▸ tree_get hk⟩
  · exact .inl ⟨hs, frame_die root t₀ es t₁ hs⟩

/-- In every frame that was recorded, the self time of every node is its inclusive time minus the inclusive
times of its children. -/
theorem C61_self (root : L) (t₀ : W) (es : List (Ev L)) (t₁ : W) (f : Frame L) (h : frame root t₀ es t₁ = .ok f)
    (i : Nat) (n : Node L) (hn : f.nodes[i]? = some n) :
    n.self = n.heir - (n.children.map fun c => ((f.nodes[c]?).map Node.heir).getD 0).sum := by
  by_cases hs : (trace (es.map toAct)).stack = []
  · obtain ⟨f', g, r, h1, _, _, _, _, h6⟩ := frame_ok root t₀ es t₁ hs
    rw [h] at h1
    cases h1
    rw [h6 i (by rcases List.getElem?_eq_some_iff.1 hn with ⟨h, _⟩; exact h) n hn]
    congr 2
    apply List.map_congr_left
    intro c _
    unfold heirOf
    cases f.nodes[c]? <;> rfl
  · rw [frame_die root t₀ es t₁ hs] at h
    cases h

/-- Call count and inclusive time of a node are right when its path was entered at most once, and none of
the paths one level below was entered twice.

Missing from the full statement: paths entered several times, and paths with a sub-path entered several times;
there the counts are wrong (`C61_false`). -/
theorem C61_times_partial (root : L) (t₀ : W) (es : List (Ev L)) (t₁ : W) (f : Frame L) (h : frame root t₀ es t₁ = .ok f)
    (i : Nat) (n : Node L) (hn : f.nodes[i]? = some n) (p : List L) (hp : PathOf (tree f.nodes) i p)
    (h1 : (trace (es.map toAct)).count p ≤ 1) (h2 : ∀ l, (trace (es.map toAct)).count (p ++ [l]) ≤ 1) :
    (p = [] → n.calls = 1 ∧ n.heir = t₁ - t₀) ∧
    (p ≠ [] → n.calls = BitVec.ofNat 64 ((trace (es.map toAct)).count p) ∧ n.heir = (trace (es.map toAct)).total p) := by
  by_cases hs : (trace (es.map toAct)).stack = []
  · obtain ⟨f', g, r, h3, h4, h5, h6, h7, h8⟩ := frame_ok root t₀ es t₁ hs
    rw [h] at h3
    cases h3
    rw [h7] at hp
    obtain ⟨m, hm, _, hb, hf, hh, hc, _, _⟩ := h6.get hn
    refine ⟨?_, ?_⟩
    · rintro rfl
      obtain rfl := hp.nil_inv
      obtain ⟨h9, _, h10⟩ := h4.num 0 r [] h5 hp ⟨h1, h2⟩
      rcases set_get hm with ⟨_, rfl⟩ | ⟨h0, _⟩
      · rw [hc, hh, ← h10 rfl]
        exact ⟨h9, rfl⟩
      · exact absurd rfl h0
    · intro hne
      have hi : i ≠ 0 := by
        rintro rfl
        exact hne (hp.fn (.root h4.ti.pos))
      rcases set_get hm with ⟨h0, _⟩ | ⟨_, hm⟩
      · exact absurd h0 hi
      · obtain ⟨h9, h10, _⟩ := h4.num i m p hm hp ⟨h1, h2⟩
        rw [hc, hh, h9, (h10 hi).1]
        refine ⟨?_, rfl⟩
        have : (trace (es.map toAct)).count p = 1 := by
          rcases h4.back i p hp with h | h
          · exact absurd h hne
          · have := count_pos h
            omega
        rw [this]
        rfl
  · rw [frame_die root t₀ es t₁ hs] at h
    cases h

/-- A scope entered and left twice: the second call is counted for the frame and not for the scope, the time
of the scope counts from its first entry both times, and the frame's own time starts at the second entry. -/
theorem C61_false : ∃ (es : List (Ev Nat)) (f : Frame Nat), frame 0 0 es 100 = .ok f ∧
    (∃ n, f.nodes[1]? = some n ∧ PathOf (tree f.nodes) 1 [7] ∧
      (trace (es.map toAct)).count [7] = 2 ∧ n.calls = 1 ∧ (trace (es.map toAct)).total [7] = 30 ∧ n.heir = 60) ∧
    ∃ n, f.nodes[0]? = some n ∧ n.calls = 2 ∧ n.heir = 60 := by
  refine ⟨[.enter 7 10, .exit 20, .enter 7 40, .exit 60], ⟨0, [⟨0, 40, 100, 0, 60, 2, 0, [1]⟩, ⟨7, 10, 60, 60, 60, 1, 0, []⟩]⟩,
    by decide +kernel, ⟨_, rfl, ?_, by decide +kernel, rfl, by decide +kernel, rfl⟩, _, rfl, rfl, rfl⟩
  exact .node (p := []) (by decide) rfl (.root (by decide))

/-- What is recorded in every frame: the calls and times of every node are those of the book of its path
(`Spec.Prof.Book.act`), in which repeated entries are booked to the path above. In particular the calls of a node are
one plus the entries one level below that were not the first of their path. -/
theorem C61_exact (root : L) (t₀ : W) (es : List (Ev L)) (t₁ : W) (f : Frame L) (h : frame root t₀ es t₁ = .ok f)
    (i : Nat) (n : Node L) (hn : f.nodes[i]? = some n) (p : List L) (hp : PathOf (tree f.nodes) i p) :
    n.calls = (book {} (Book.start t₀) (es.map toAct)).calls p ∧
    n.calls + BitVec.ofNat 64 n.children.length = 1 + BitVec.ofNat 64 ((trace (es.map toAct)).below p) ∧
    (p ≠ [] → n.heir = (book {} (Book.start t₀) (es.map toAct)).spent p) ∧
    (p = [] → n.heir = t₁ - (book {} (Book.start t₀) (es.map toAct)).since []) :=
  frame_exact root t₀ es t₁ h i n p hn hp

/-- A frame with three nested scopes; the hypotheses of `C61_times_partial` hold for all its paths. -/
def demoFrame : List (Ev Nat) := [.enter 1 10, .enter 2 15, .exit 30, .enter 3 40, .exit 41, .exit 60, .enter 2 70, .exit 75]

example : (frame 0 0 demoFrame 100).map (fun f => f.nodes.map fun n => (n.loc, n.calls, n.heir, n.self)) =
    .ok [(0, 1, 100, 45), (1, 1, 50, 34), (2, 1, 15, 15), (3, 1, 1, 1), (2, 1, 5, 5)] := by decide +kernel

example : (trace (demoFrame.map toAct)).enters = [[1], [1, 2], [1, 3], [2]] := by decide +kernel

end Rpp.Props
