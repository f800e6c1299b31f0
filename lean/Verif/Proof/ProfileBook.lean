import Verif.Proof.Profile

/-!
# The frame profiler: what exactly it records
-/

namespace Rpp.Prof

open Rpp.Spec.Prof

variable {L : Type} [DecidableEq L]

/-- The nodes hold what the book says. -/
def Exact (f : Frame L) (T : Trace L) (b : Book L) : Prop :=
  ∀ i n p, f.nodes[i]? = some n → PathOf (tree f.nodes) i p →
    n.begin = b.since p ∧ n.heir = b.spent p ∧ n.calls = b.calls p ∧
    n.calls + BitVec.ofNat 64 n.children.length = 1 + BitVec.ofNat 64 (T.below p)

theorem put_same {β : Type} (f : List L → β) (p : List L) (x : β) : put f p x p = x := if_pos rfl

theorem put_other {β : Type} (f : List L → β) {p q : List L} (x : β) (h : q ≠ p) : put f p x q = f q := if_neg h

theorem below_enter (T : Trace L) (l : L) (t : W) (p : List L) :
    (T.act (.enter l t)).below p = T.below p + if T.path = p then 1 else 0 := by
  unfold Trace.below Trace.act
  simp only [List.countP_append, List.countP_cons, List.countP_nil]
  congr 1
  by_cases h : T.path = p <;> simp [h]

theorem below_exit (T : Trace L) (t : W) (p : List L) : (T.act (.exit t)).below p = T.below p := by
  unfold Trace.below Trace.act
  dsimp only
  split <;> rfl

theorem enter_exact {t₀ : W} {f f' : Frame L} {T : Trace L} {b : Book L} (h : Inv t₀ f T) (hx : Exact f T b) (l : L) (t : W)
    (he : enter l t f = .ok f') : Exact f' (T.act (.enter l t)) (b.act T (.enter l t)) := by
  have hlt := h.pos.lt
  rw [tree_len] at hlt
  have hn := List.getElem?_eq_getElem hlt
  generalize hnode : f.nodes[f.cur] = node at hn
  have ha : at' f.nodes f.cur = .ok node := by unfold at'; rw [hn]
  have hk := h.kid _ _ hn
  obtain ⟨r, h1, h2⟩ := search_ok f.nodes l node.children none (by
    intro c hc
    rw [hk, mem_kids] at hc
    obtain ⟨_, _, hc⟩ := hc
    obtain ⟨_, hc, _⟩ := get_of_tree hc
    rcases List.getElem?_eq_some_iff.1 hc with ⟨hc, _⟩
    exact hc)
  unfold enter at he
  rw [ha] at he
  dsimp only at he
  rw [h1] at he
  rcases h2 with ⟨rfl, h2⟩ | ⟨c, hc, rfl, m, hm, hml⟩
  · -- a new node
    cases he
    have htr : tree (f.nodes.set f.cur { node with children := node.children ++ [f.nodes.length] } ++ [Node.make l f.cur t]) =
        tree f.nodes ++ [(l, f.cur)] := by
      have := tree_set (n' := { node with children := node.children ++ [f.nodes.length] }) hn rfl rfl
      unfold tree at this ⊢
      rw [List.map_append, this]
      rfl
    have hnew : ∀ i, i ≠ 0 → (tree f.nodes)[i]? ≠ some (l, f.cur) := by
      intro i hi hx
      obtain ⟨n, hn1, hn2, hn3⟩ := get_of_tree hx
      exact h2 i (by rw [hk, mem_kids]; exact ⟨hi, l, hx⟩) n hn1 hn2
    have hnotin : T.path ++ [l] ∉ T.enters := by
      intro hx
      obtain ⟨i, hi⟩ := h.ent _ hx
      obtain ⟨hi0, q, h3, h4⟩ := hi.snoc_inv
      rw [h.ti.inj h4 h.pos] at h3
      exact hnew i hi0 h3
    have hnopath : ∀ i, ¬ PathOf (tree f.nodes) i (T.path ++ [l]) := by
      intro i hi
      obtain ⟨hi0, q, h3, h4⟩ := hi.snoc_inv
      rw [h.ti.inj h4 h.pos] at h3
      exact hnew i hi0 h3
    have hlen0 : f.nodes.length ≠ 0 := by omega
    have hnewp : PathOf (tree f.nodes ++ [(l, f.cur)]) f.nodes.length (T.path ++ [l]) :=
      .node hlen0 (by simp [← tree_len]) (h.pos.append _)
    have hb0 : T.below (T.path ++ [l]) = 0 := by
      unfold Trace.below
      rw [List.countP_eq_zero]
      intro q hq hc
      simp only [decide_eq_true_eq] at hc
      obtain ⟨i, hi⟩ := h.ent q hq
      obtain ⟨hc1, hc2⟩ := hc
      have hq2 := List.dropLast_concat_getLast hc1
      generalize q.getLast hc1 = x at hq2
      rw [hc2] at hq2
      rw [← hq2] at hi
      obtain ⟨_, j, _, hj⟩ := hi.snoc_inv
      exact hnopath j hj
    intro i n p hi hp
    dsimp only at hi hp
    rw [htr] at hp
    rw [below_enter]
    unfold Book.act
    dsimp only
    rw [if_neg hnotin]
    dsimp only
    by_cases hl : i < f.nodes.length
    · have hp' : PathOf (tree f.nodes) i p := by
        obtain ⟨q, hq⟩ := h.ti.ex i (by rw [tree_len]; exact hl)
        rw [hp.fn (hq.append _)]; exact hq
      have hpne : p ≠ T.path ++ [l] := fun e => hnopath i (e ▸ hp')
      rw [put_other _ _ hpne, put_other _ _ hpne, put_other _ _ hpne]
      rw [List.getElem?_append_left (by simpa using hl)] at hi
      rcases set_get hi with ⟨rfl, rfl⟩ | ⟨h3, h4⟩
      · obtain ⟨a1, a2, a3, a4⟩ := hx _ _ p hn hp'
        refine ⟨a1, a2, a3, ?_⟩
        rw [if_pos (h.pos.fn hp')]
        simp only [List.length_append, List.length_cons, List.length_nil]
        rw [Nat.zero_add, BitVec.ofNat_add, BitVec.ofNat_add, ← BitVec.add_assoc, ← BitVec.add_assoc, a4]
      · obtain ⟨a1, a2, a3, a4⟩ := hx _ _ p h4 hp'
        refine ⟨a1, a2, a3, ?_⟩
        have hne : ¬ T.path = p := fun e => h3 (h.ti.inj hp' (e ▸ h.pos))
        rw [if_neg hne]
        exact a4
    · rw [List.getElem?_append_right (by simpa using Nat.le_of_not_lt hl)] at hi
      rw [List.length_set] at hi
      by_cases hl2 : i = f.nodes.length
      · subst hl2
        simp at hi
        subst hi
        rw [hp.fn hnewp, put_same, put_same, put_same, hb0, if_neg (by simp)]
        exact ⟨rfl, rfl, rfl, rfl⟩
      · obtain ⟨k, hk⟩ := Nat.exists_eq_succ_of_ne_zero (show i - f.nodes.length ≠ 0 by omega)
        rw [hk] at hi; simp at hi
  · -- entered before
    cases he
    have htr : tree (f.nodes.set f.cur { node with begin := t, calls := node.calls + 1 }) = tree f.nodes :=
      tree_set hn rfl rfl
    rw [hk, mem_kids] at hc
    obtain ⟨hc0, l', hc1⟩ := hc
    have hcl : l' = l := by
      obtain ⟨m', hm', hm2, _⟩ := get_of_tree hc1
      rw [hm] at hm'; cases hm'
      rw [← hm2, hml]
    subst hcl
    have hcp : PathOf (tree f.nodes) c (T.path ++ [l']) := .node hc0 hc1 h.pos
    have hin : T.path ++ [l'] ∈ T.enters := by
      rcases h.back _ _ hcp with h3 | h3
      · simp at h3
      · exact h3
    intro i n p hi hp
    dsimp only at hi hp
    rw [htr] at hp
    rw [below_enter]
    unfold Book.act
    dsimp only
    rw [if_pos hin]
    dsimp only
    rcases set_get hi with ⟨rfl, rfl⟩ | ⟨h3, h4⟩
    · obtain ⟨a1, a2, a3, a4⟩ := hx _ _ p hn hp
      have e := h.pos.fn hp
      subst e
      rw [put_same, put_same, if_pos rfl]
      refine ⟨rfl, a2, by rw [a3], ?_⟩
      dsimp only
      rw [BitVec.ofNat_add, ← BitVec.add_assoc, ← a4, BitVec.add_assoc, BitVec.add_assoc, BitVec.add_comm 1]
      rfl
    · have hne : p ≠ T.path := fun e => h3 (h.ti.inj hp (e ▸ h.pos))
      rw [put_other _ _ hne, put_other _ _ hne, if_neg (fun e => hne e.symm)]
      exact hx _ _ p h4 hp

theorem exit_exact {t₀ : W} {f f' : Frame L} {T : Trace L} {b : Book L} (h : Inv t₀ f T) (hx : Exact f T b) (t : W)
    (he : exit t f = .ok f') : Exact f' (T.act (.exit t)) (b.act T (.exit t)) := by
  have hlt := h.pos.lt
  rw [tree_len] at hlt
  have hn := List.getElem?_eq_getElem hlt
  generalize hnode : f.nodes[f.cur] = node at hn
  have ha : at' f.nodes f.cur = .ok node := by unfold at'; rw [hn]
  unfold exit at he
  rw [ha] at he
  cases he
  have htr : tree (f.nodes.set f.cur { node with fin := t, heir := node.heir + (t - node.begin) }) = tree f.nodes :=
    tree_set hn rfl rfl
  intro i n p hi hp
  dsimp only at hi hp
  rw [htr] at hp
  rw [below_exit]
  unfold Book.act
  dsimp only
  rcases set_get hi with ⟨rfl, rfl⟩ | ⟨h3, h4⟩
  · obtain ⟨a1, a2, a3, a4⟩ := hx _ _ p hn hp
    have e := h.pos.fn hp
    subst e
    rw [put_same]
    exact ⟨a1, by rw [a1, a2], a3, a4⟩
  · have hne : p ≠ T.path := fun e => h3 (h.ti.inj hp (e ▸ h.pos))
    rw [put_other _ _ hne]
    exact hx _ _ p h4 hp

theorem steps_exact {t₀ : W} : ∀ (es : List (Ev L)) (f f' : Frame L) (T : Trace L) (b : Book L), Inv t₀ f T → Exact f T b →
    steps f es = .ok f' → Exact f' ((es.map toAct).foldl Trace.act T) (book T b (es.map toAct))
  | [], f, f', T, b, _, hx, he => by cases he; exact hx
  | .enter l t :: es, f, f', T, b, h, hx, he => by
    obtain ⟨g, h1, h2⟩ := enter_inv h l t
    simp only [steps, step, h1] at he
    exact steps_exact es g f' _ _ h2 (enter_exact h hx l t h1) he
  | .exit t :: es, f, f', T, b, h, hx, he => by
    obtain ⟨g, h1, h2⟩ := exit_inv h t
    simp only [steps, step, h1] at he
    exact steps_exact es g f' _ _ h2 (exit_exact h hx t h1) he

theorem begin_exact (root : L) (t₀ : W) {f : Frame L} (h : begin root t₀ {} = .ok f) :
    Exact f {} (Book.start t₀) := by
  cases h
  intro i n p hi hp
  rcases List.getElem?_eq_some_iff.1 hi with ⟨h1, h2⟩
  simp at h1
  subst h1
  simp at h2
  subst h2
  exact ⟨rfl, rfl, rfl, rfl⟩

theorem frame_exact (root : L) (t₀ : W) (es : List (Ev L)) (t₁ : W) {f : Frame L} (hf : frame root t₀ es t₁ = .ok f) :
    ∀ i n p, f.nodes[i]? = some n → PathOf (tree f.nodes) i p →
      n.calls = (book {} (Book.start t₀) (es.map toAct)).calls p ∧
      n.calls + BitVec.ofNat 64 n.children.length = 1 + BitVec.ofNat 64 ((trace (es.map toAct)).below p) ∧
      (p ≠ [] → n.heir = (book {} (Book.start t₀) (es.map toAct)).spent p) ∧
      (p = [] → n.heir = t₁ - (book {} (Book.start t₀) (es.map toAct)).since []) := by
  by_cases hs : (trace (es.map toAct)).stack = []
  · obtain ⟨f0, h1, h2⟩ := begin_inv root t₀
    obtain ⟨g, h3, h4⟩ := steps_inv es f0 _ h2
    obtain ⟨f', r, h5, h6, h7, h8⟩ := finish_ok (t := t₁) h4 hs
    have hff : f' = f := by
      unfold frame at hf
      simp only [h1, h3, h5] at hf
      cases hf; rfl
    subst hff
    have hx := steps_exact es f0 g _ _ h2 (begin_exact root t₀ h1) h3
    intro i n p hn hp
    have htr : tree f'.nodes = tree g.nodes := by rw [h7.tree]; exact tree_set h6 rfl rfl
    rw [htr] at hp
    obtain ⟨m, hm, _, hb, _, hh, hc, _, hch⟩ := h7.get hn
    rw [hc, hch, hh]
    rcases set_get hm with ⟨rfl, rfl⟩ | ⟨h0, hm⟩
    · obtain ⟨a1, a2, a3, a4⟩ := hx _ _ p h6 hp
      have hp0 := hp.fn (.root h4.ti.pos)
      exact ⟨a3, a4, fun c => absurd hp0 c, fun c => by rw [← c, ← a1]⟩
    · obtain ⟨a1, a2, a3, a4⟩ := hx _ _ p hm hp
      exact ⟨a3, a4, fun _ => a2, fun c => absurd (c ▸ hp).nil_inv h0⟩
  · rw [frame_die root t₀ es t₁ hs] at hf; cases hf

end Rpp.Prof
