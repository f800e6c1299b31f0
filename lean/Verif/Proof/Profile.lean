import Verif.Spec.ProfileView
import Verif.Model.Profile
import Verif.Spec.Profile

/-!
# The frame profiler: helper lemmas
-/

namespace Rpp.Prof

open Rpp.Spec.Prof

variable {L : Type} [DecidableEq L]

omit [DecidableEq L] in
theorem tree_get {ns : List (Node L)} {i : Nat} {n : Node L} (h : ns[i]? = some n) :
    (tree ns)[i]? = some (n.loc, n.parent) := by simp [tree, h]

omit [DecidableEq L] in
theorem get_of_tree {ns : List (Node L)} {i q : Nat} {l : L} (h : (tree ns)[i]? = some (l, q)) :
    ∃ n, ns[i]? = some n ∧ n.loc = l ∧ n.parent = q := by
  simp only [tree, List.getElem?_map, Option.map_eq_some_iff, Prod.mk.injEq] at h
  exact h

omit [DecidableEq L] in
theorem tree_len (ns : List (Node L)) : (tree ns).length = ns.length := by simp [tree]

omit [DecidableEq L] in
theorem tree_set {ns : List (Node L)} {i : Nat} {n n' : Node L} (h : ns[i]? = some n)
    (h1 : n'.loc = n.loc) (h2 : n'.parent = n.parent) : tree (ns.set i n') = tree ns := by
  unfold tree
  rw [List.map_set]
  apply List.ext_getElem?
  intro j
  rw [List.getElem?_set]
  split
  · subst i
    have : j < ns.length := by
      rcases List.getElem?_eq_some_iff.1 h with ⟨h, _⟩
      exact h
    rw [if_pos (by simpa using this)]
    simp [h, h1, h2]
  · rfl

/-! ## Paths -/

omit [DecidableEq L] in
theorem _root_.Rpp.Spec.Prof.PathOf.lt {tr : List (L × Nat)} {i : Nat} {p : List L} (h : PathOf tr i p) : i < tr.length := by
  cases h with
  | root h => exact h
  | node _ h _ =>
    rcases List.getElem?_eq_some_iff.1 h with ⟨h, _⟩
    exact h

omit [DecidableEq L] in
theorem _root_.Rpp.Spec.Prof.PathOf.fn {tr : List (L × Nat)} {i : Nat} {p q : List L} (h : PathOf tr i p) (h' : PathOf tr i q) : p = q := by
  induction h generalizing q with
  | root _ =>
    cases h' with
    | root _ => rfl
    | node h0 _ _ => exact absurd rfl h0
  | node h0 h1 _ ih =>
    cases h' with
    | root _ => exact absurd rfl h0
    | node _ h2 h3 =>
      rw [h1] at h2
      cases h2
      rw [ih h3]

omit [DecidableEq L] in
theorem _root_.Rpp.Spec.Prof.PathOf.nil_inv {tr : List (L × Nat)} {i : Nat} (h : PathOf tr i []) : i = 0 := by
  generalize hp : ([] : List L) = p at h
  cases h with
  | root _ => rfl
  | node _ _ _ => simp at hp

omit [DecidableEq L] in
theorem _root_.Rpp.Spec.Prof.PathOf.snoc_inv {tr : List (L × Nat)} {i : Nat} {p : List L} {l : L} (h : PathOf tr i (p ++ [l])) :
    i ≠ 0 ∧ ∃ q, tr[i]? = some (l, q) ∧ PathOf tr q p := by
  generalize hp : p ++ [l] = p' at h
  cases h with
  | root _ => simp at hp
  | node h0 h1 h2 =>
    have := List.append_inj' hp rfl
    simp only [List.cons.injEq, and_true] at this
    obtain ⟨rfl, rfl⟩ := this
    exact ⟨h0, _, h1, h2⟩

omit [DecidableEq L] in
theorem _root_.Rpp.Spec.Prof.PathOf.append {tr : List (L × Nat)} {i : Nat} {p : List L} (x : L × Nat) (h : PathOf tr i p) :
    PathOf (tr ++ [x]) i p := by
  induction h with
  | root h => exact .root (by simp)
  | node h0 h1 _ ih =>
    refine .node h0 ?_ ih
    rw [List.getElem?_append_left]
    · exact h1
    · rcases List.getElem?_eq_some_iff.1 h1 with ⟨h, _⟩
      exact h

/-- A well-formed tree. -/
structure TI (tr : List (L × Nat)) : Prop where
  pos : 0 < tr.length
  par : ∀ i l q, i ≠ 0 → tr[i]? = some (l, q) → q < i
  sib : ∀ i j l q, i ≠ 0 → j ≠ 0 → tr[i]? = some (l, q) → tr[j]? = some (l, q) → i = j

omit [DecidableEq L] in
theorem TI.ex {tr : List (L × Nat)} (h : TI tr) : ∀ i, i < tr.length → ∃ p, PathOf tr i p := by
  intro i
  induction i using Nat.strongRecOn with
  | ind i ih =>
    intro hi
    by_cases c : i = 0
    · subst c; exact ⟨[], .root hi⟩
    · have h1 := List.getElem?_eq_getElem hi
      have h2 := h.par i tr[i].1 tr[i].2 c h1
      obtain ⟨p, hp⟩ := ih _ h2 (by omega)
      exact ⟨_, .node c h1 hp⟩

omit [DecidableEq L] in
theorem TI.inj {tr : List (L × Nat)} (h : TI tr) {i j : Nat} {p : List L} (h1 : PathOf tr i p) (h2 : PathOf tr j p) :
    i = j := by
  induction h1 generalizing j with
  | root _ => exact h2.nil_inv.symm
  | node h0 h3 _ ih =>
    obtain ⟨h4, q, h5, h6⟩ := h2.snoc_inv
    rw [← ih h6] at h5
    exact h.sib _ _ _ _ h0 h4 h3 h5

omit [DecidableEq L] in
/-- A leaf is added below node `c`. -/
theorem TI.append {tr : List (L × Nat)} (h : TI tr) {l : L} {c : Nat} (hc : c < tr.length)
    (hn : ∀ i, i ≠ 0 → tr[i]? ≠ some (l, c)) : TI (tr ++ [(l, c)]) := by
  have key : ∀ i x, (tr ++ [(l, c)])[i]? = some x → tr[i]? = some x ∨ (i = tr.length ∧ x = (l, c)) := by
    intro i x hx
    by_cases h1 : i < tr.length
    · rw [List.getElem?_append_left h1] at hx
      exact .inl hx
    · rw [List.getElem?_append_right (by omega)] at hx
      by_cases h2 : i = tr.length
      · subst h2
        simp at hx
        exact .inr ⟨rfl, hx.symm⟩
      · have : i - tr.length ≠ 0 := by omega
        obtain ⟨k, hk⟩ := Nat.exists_eq_succ_of_ne_zero this
        rw [hk] at hx
        simp at hx
  refine ⟨by simp, ?_, ?_⟩
  · intro i l' q h0 h1
    rcases key i _ h1 with h3 | ⟨h3, h4⟩
    · exact h.par _ _ _ h0 h3
    · cases h4; omega
  · intro i j l' q h0 h0' h1 h2
    rcases key i _ h1 with h3 | ⟨h3, h4⟩
    · rcases key j _ h2 with h5 | ⟨h5, h6⟩
      · exact h.sib _ _ _ _ h0 h0' h3 h5
      · cases h6; exact absurd h3 (hn _ h0)
    · rcases key j _ h2 with h5 | ⟨h5, h6⟩
      · cases h4; exact absurd h5 (hn _ h0')
      · omega

omit [DecidableEq L] in
/-- The paths of the nodes that were there stay as they are. -/
theorem TI.append_path {tr : List (L × Nat)} (h : TI tr) {x : L × Nat} {i : Nat} {p : List L}
    (hi : i < tr.length) (hp : PathOf (tr ++ [x]) i p) : PathOf tr i p := by
  obtain ⟨q, hq⟩ := h.ex i hi
  rw [hp.fn (hq.append x)]
  exact hq

/-- The children of a node, in order. -/
def kids (tr : List (L × Nat)) (i : Nat) : List Nat :=
  (List.range tr.length).filter fun j => decide (j ≠ 0) && ((tr[j]?.map (·.2)) == some i)

omit [DecidableEq L] in
theorem mem_kids {tr : List (L × Nat)} {i j : Nat} : j ∈ kids tr i ↔ j ≠ 0 ∧ ∃ l, tr[j]? = some (l, i) := by
  unfold kids
  simp only [List.mem_filter, List.mem_range, Bool.and_eq_true, decide_eq_true_eq, beq_iff_eq, Option.map_eq_some_iff]
  constructor
  · rintro ⟨_, h0, ⟨l, q⟩, h1, h2⟩
    exact ⟨h0, l, by rw [h1]; simp at h2; rw [h2]⟩
  · rintro ⟨h0, l, h1⟩
    refine ⟨?_, h0, _, h1, rfl⟩
    rcases List.getElem?_eq_some_iff.1 h1 with ⟨h, _⟩
    exact h

omit [DecidableEq L] in
theorem kids_append {tr : List (L × Nat)} (h : 0 < tr.length) {l : L} {c i : Nat} :
    kids (tr ++ [(l, c)]) i = kids tr i ++ if c = i then [tr.length] else [] := by
  unfold kids
  rw [List.length_append, List.length_singleton, List.range_succ, List.filter_append]
  congr 1
  · apply List.filter_congr
    intro j hj
    rw [List.getElem?_append_left (by simpa using hj)]
  · have : tr.length ≠ 0 := by omega
    simp only [List.filter_cons, List.filter_nil]
    simp [this]

/-! ## Entering and leaving -/

/-- The stack of a trace: each path extends the one below it by one location. -/
inductive Chain : List (List L × W) → Prop where
  | nil : Chain []
  | cons (s : Trace L) (l : L) (t : W) : Chain s.stack → Chain ((s.path ++ [l], t) :: s.stack)

/-- A path that was entered at most once, with sub-paths that were entered at most once each. -/
def Quiet (T : Trace L) (p : List L) : Prop := T.count p ≤ 1 ∧ ∀ l, T.count (p ++ [l]) ≤ 1

structure Inv (t₀ : W) (f : Frame L) (T : Trace L) : Prop where
  ti : TI (tree f.nodes)
  root : ∀ n, f.nodes[0]? = some n → n.parent = 0
  kid : ∀ i n, f.nodes[i]? = some n → n.children = kids (tree f.nodes) i
  pos : PathOf (tree f.nodes) f.cur T.path
  chain : Chain T.stack
  ent : ∀ p ∈ T.enters, ∃ i, PathOf (tree f.nodes) i p
  back : ∀ i p, PathOf (tree f.nodes) i p → p = [] ∨ p ∈ T.enters
  nent : [] ∉ T.enters
  span : ∀ x ∈ T.spans, x.1 ∈ T.enters
  open_ : ∀ x ∈ T.stack, x.1 ∈ T.enters
  num : ∀ i n p, f.nodes[i]? = some n → PathOf (tree f.nodes) i p → Quiet T p →
    n.calls = 1 ∧ (i ≠ 0 → n.heir = T.total p ∧ ∀ b, (p, b) ∈ T.stack → n.begin = b) ∧ (i = 0 → n.begin = t₀)

theorem search_ok (ns : List (Node L)) (loc : L) : ∀ (cs : List Nat) (r₀ : Option Nat), (∀ c ∈ cs, c < ns.length) →
    ∃ r, search ns loc cs r₀ = .ok r ∧
      ((r = r₀ ∧ ∀ c ∈ cs, ∀ n, ns[c]? = some n → n.loc ≠ loc) ∨ ∃ c ∈ cs, r = some c ∧ ∃ n, ns[c]? = some n ∧ n.loc = loc)
  | [], r₀, _ => ⟨r₀, rfl, .inl ⟨rfl, by simp⟩⟩
  | c :: cs, r₀, h => by
    have hc := h c (.head _)
    have h1 := List.getElem?_eq_getElem hc
    have ha : at' ns c = .ok ns[c] := by unfold at'; rw [h1]
    unfold search
    rw [ha]
    obtain ⟨r, h2, h3⟩ := search_ok ns loc cs (if ns[c].loc = loc then some c else r₀) (fun d hd => h d (.tail _ hd))
    refine ⟨r, h2, ?_⟩
    rcases h3 with ⟨h3, h4⟩ | ⟨d, hd, h3, h4⟩
    · by_cases c' : ns[c].loc = loc
      · rw [if_pos c'] at h3
        exact .inr ⟨c, .head _, h3, _, h1, c'⟩
      · rw [if_neg c'] at h3
        refine .inl ⟨h3, ?_⟩
        intro d hd n hn
        cases hd with
        | head => rw [h1] at hn; cases hn; exact c'
        | tail _ hd => exact h4 d hd n hn
    · exact .inr ⟨d, .tail _ hd, h3, h4⟩

omit [DecidableEq L] in
theorem set_get {ns : List (Node L)} {i j : Nat} {m n : Node L} (h : (ns.set i m)[j]? = some n) :
    (j = i ∧ n = m) ∨ (j ≠ i ∧ ns[j]? = some n) := by
  rw [List.getElem?_set] at h
  split at h
  · split at h
    · cases h; exact .inl ⟨by omega, rfl⟩
    · simp at h
  · exact .inr ⟨by omega, h⟩

theorem count_enter (T : Trace L) (l : L) (t : W) (p : List L) :
    (T.act (.enter l t)).count p = T.count p + if T.path ++ [l] = p then 1 else 0 := by
  unfold Trace.count Trace.act
  simp [List.count_append, List.count_singleton]

theorem total_enter (T : Trace L) (l : L) (t : W) (p : List L) : (T.act (.enter l t)).total p = T.total p := rfl

theorem quiet_enter {T : Trace L} {l : L} {t : W} {p : List L} (h : Quiet (T.act (.enter l t)) p) : Quiet T p := by
  refine ⟨?_, fun k => ?_⟩
  · have := h.1; rw [count_enter] at this; omega
  · have := h.2 k; rw [count_enter] at this; omega

theorem count_pos {T : Trace L} {p : List L} (h : p ∈ T.enters) : 0 < T.count p := List.count_pos_iff.2 h

theorem total_zero {T : Trace L} {p : List L} (h : ∀ x ∈ T.spans, x.1 ≠ p) : T.total p = 0 := by
  unfold Trace.total
  have : T.spans.filter (fun x => x.1 = p) = [] := by
    rw [List.filter_eq_nil_iff]
    intro x hx
    simpa using h x hx
  rw [this]
  rfl

theorem enter_inv {t₀ : W} {f : Frame L} {T : Trace L} (h : Inv t₀ f T) (l : L) (t : W) :
    ∃ f', enter l t f = .ok f' ∧ Inv t₀ f' (T.act (.enter l t)) := by
  have hlt := h.pos.lt
  rw [tree_len] at hlt
  have hn := List.getElem?_eq_getElem hlt
  generalize hnode : f.nodes[f.cur] = node at hn
  have ha : at' f.nodes f.cur = .ok node := by unfold at'; rw [hn]
  have hk := h.kid _ _ hn
  obtain ⟨r, h1, h2⟩ := search_ok f.nodes l node.children none (by
    intro c hc
    rw [hk, mem_kids] at hc
    obtain ⟨_, _, hc⟩ := hc
    obtain ⟨_, hc, _⟩ := get_of_tree hc
    rcases List.getElem?_eq_some_iff.1 hc with ⟨hc, _⟩
    exact hc)
  unfold enter
  rw [ha]
  dsimp only
  rw [h1]
  rcases h2 with ⟨rfl, h2⟩ | ⟨c, hc, rfl, m, hm, hml⟩
  · -- a new node
    refine ⟨_, rfl, ?_⟩
    have htr : tree (f.nodes.set f.cur { node with children := node.children ++ [f.nodes.length] } ++ [Node.make l f.cur t]) =
        tree f.nodes ++ [(l, f.cur)] := by
      have := tree_set (n' := { node with children := node.children ++ [f.nodes.length] }) hn rfl rfl
      unfold tree at this ⊢
      rw [List.map_append, this]
      rfl
    have hnew : ∀ i, i ≠ 0 → (tree f.nodes)[i]? ≠ some (l, f.cur) := by
      intro i hi hx
      obtain ⟨n, hn1, hn2, hn3⟩ := get_of_tree hx
      exact h2 i (by rw [hk, mem_kids]; exact ⟨hi, l, hx⟩) n hn1 hn2
    have hti := h.ti.append (by rw [tree_len]; exact hlt) hnew
    have hlen0 : f.nodes.length ≠ 0 := by omega
    have hnewp : PathOf (tree f.nodes ++ [(l, f.cur)]) f.nodes.length (T.path ++ [l]) :=
      .node hlen0 (by simp [← tree_len]) (h.pos.append _)
    have hget : ∀ i n, (f.nodes.set f.cur { node with children := node.children ++ [f.nodes.length] } ++ [Node.make l f.cur t])[i]? = some n →
        (i < f.nodes.length ∧ ∃ m, f.nodes[i]? = some m ∧ n.calls = m.calls ∧ n.heir = m.heir ∧ n.begin = m.begin ∧ n.parent = m.parent ∧
          n.children = if f.cur = i then m.children ++ [f.nodes.length] else m.children) ∨
        (i = f.nodes.length ∧ n = Node.make l f.cur t) := by
      intro i n hi
      by_cases hl : i < f.nodes.length
      · rw [List.getElem?_append_left (by simpa using hl)] at hi
        refine .inl ⟨hl, ?_⟩
        rcases set_get hi with ⟨rfl, rfl⟩ | ⟨h3, h4⟩
        · exact ⟨_, hn, rfl, rfl, rfl, rfl, by simp⟩
        · exact ⟨_, h4, rfl, rfl, rfl, rfl, by rw [if_neg (fun h => h3 h.symm)]⟩
      · rw [List.getElem?_append_right (by simpa using Nat.le_of_not_lt hl)] at hi
        rw [List.length_set] at hi
        by_cases hl2 : i = f.nodes.length
        · subst hl2; simp at hi; exact .inr ⟨rfl, hi.symm⟩
        · obtain ⟨k, hk⟩ := Nat.exists_eq_succ_of_ne_zero (show i - f.nodes.length ≠ 0 by omega)
          rw [hk] at hi; simp at hi
    have hnotin : T.path ++ [l] ∉ T.enters := by
      intro hx
      obtain ⟨i, hi⟩ := h.ent _ hx
      obtain ⟨hi0, q, h3, h4⟩ := hi.snoc_inv
      rw [h.ti.inj h4 h.pos] at h3
      exact hnew i hi0 h3
    constructor
    · dsimp only; rw [htr]; exact hti
    · intro n hx
      rcases hget _ _ hx with ⟨_, m, hm, _, _, _, h5, _⟩ | ⟨h3, _⟩
      · rw [h5]; exact h.root _ hm
      · omega
    · intro i n hx
      dsimp only
      rw [htr, kids_append h.ti.pos, tree_len]
      rcases hget _ _ hx with ⟨hl, m, hm, _, _, _, _, h5⟩ | ⟨h3, h4⟩
      · rw [h5, h.kid _ _ hm]
        split <;> simp
      · subst h4
        have : kids (tree f.nodes) i = [] := by
          rw [List.eq_nil_iff_forall_not_mem]
          intro j hj
          rw [mem_kids] at hj
          obtain ⟨hj0, l', hj⟩ := hj
          have := h.ti.par _ _ _ hj0 hj
          rcases List.getElem?_eq_some_iff.1 hj with ⟨hj, _⟩
          rw [tree_len] at hj
          omega
        rw [this, if_neg (by omega)]
        rfl
    · dsimp only; rw [htr]; exact hnewp
    · exact .cons T l t h.chain
    · intro p hp
      dsimp only
      rw [htr]
      simp only [Trace.act, List.mem_append, List.mem_singleton] at hp
      rcases hp with hp | rfl
      · obtain ⟨i, hi⟩ := h.ent p hp
        exact ⟨i, hi.append _⟩
      · exact ⟨_, hnewp⟩
    · intro i p hp
      dsimp only at hp
      rw [htr] at hp
      simp only [Trace.act, List.mem_append, List.mem_singleton]
      by_cases hi : i < f.nodes.length
      · rcases h.back i p (h.ti.append_path (by rw [tree_len]; exact hi) hp) with h3 | h3
        · exact .inl h3
        · exact .inr (.inl h3)
      · have hi2 := hp.lt
        rw [List.length_append, tree_len, List.length_singleton] at hi2
        have : i = f.nodes.length := by omega
        subst this
        exact .inr (.inr (hp.fn hnewp))
    · simp only [Trace.act, List.mem_append, List.mem_singleton, not_or]
      exact ⟨h.nent, by simp⟩
    · intro x hx
      simp only [Trace.act, List.mem_append]
      exact .inl (h.span x hx)
    · intro x hx
      simp only [Trace.act, List.mem_append, List.mem_singleton, List.mem_cons] at hx ⊢
      rcases hx with rfl | hx
      · exact .inr (.inl rfl)
      · exact .inl (h.open_ x hx)
    · intro i n p hx hp hq
      dsimp only at hp
      rw [htr] at hp
      rcases hget _ _ hx with ⟨hl, m, hm, h3, h4, h5, _, _⟩ | ⟨h3, h4⟩
      · have hp' := h.ti.append_path (by rw [tree_len]; exact hl) hp
        obtain ⟨h6, h7, h8⟩ := h.num i m p hm hp' (quiet_enter hq)
        rw [h3, h4, h5]
        refine ⟨h6, fun h0 => ⟨(h7 h0).1, fun b hb => ?_⟩, h8⟩
        simp only [Trace.act, List.mem_cons] at hb
        rcases hb with hb | hb
        · cases hb
          have h9 := hti.inj hp hnewp
          omega
        · exact (h7 h0).2 b hb
      · subst h4
        subst h3
        have := hp.fn hnewp
        subst this
        refine ⟨rfl, fun _ => ⟨?_, fun b hb => ?_⟩, fun h0 => absurd h0 hlen0⟩
        · rw [total_enter, total_zero]
          · rfl
          · intro x hx hxp
            exact hnotin (hxp ▸ h.span x hx)
        · simp only [Trace.act, List.mem_cons] at hb
          rcases hb with hb | hb
          · cases hb; rfl
          · exact absurd (h.open_ _ hb) hnotin
  · -- entered before
    refine ⟨_, rfl, ?_⟩
    have htr : tree (f.nodes.set f.cur { node with begin := t, calls := node.calls + 1 }) = tree f.nodes :=
      tree_set hn rfl rfl
    rw [hk, mem_kids] at hc
    obtain ⟨hc0, l', hc1⟩ := hc
    have hcl : l' = l := by
      obtain ⟨m', hm', hm2, _⟩ := get_of_tree hc1
      rw [hm] at hm'; cases hm'
      rw [← hm2, hml]
    subst hcl
    have hcp : PathOf (tree f.nodes) c (T.path ++ [l']) := .node hc0 hc1 h.pos
    have hin : T.path ++ [l'] ∈ T.enters := by
      rcases h.back _ _ hcp with h3 | h3
      · simp at h3
      · exact h3
    have hcount := count_pos hin
    constructor
    · dsimp only; rw [htr]; exact h.ti
    · intro n hx
      rcases set_get hx with ⟨h3, rfl⟩ | ⟨_, h3⟩
      · exact h.root node (by rw [h3]; exact hn)
      · exact h.root _ h3
    · intro i n hx
      dsimp only
      rw [htr]
      rcases set_get hx with ⟨rfl, rfl⟩ | ⟨_, h3⟩
      · exact hk
      · exact h.kid _ _ h3
    · dsimp only; rw [htr]; exact hcp
    · exact .cons T l' t h.chain
    · intro p hp
      dsimp only
      rw [htr]
      simp only [Trace.act, List.mem_append, List.mem_singleton] at hp
      rcases hp with hp | rfl
      · exact h.ent p hp
      · exact ⟨_, hcp⟩
    · intro i p hp
      dsimp only at hp
      rw [htr] at hp
      simp only [Trace.act, List.mem_append, List.mem_singleton]
      rcases h.back i p hp with h3 | h3
      · exact .inl h3
      · exact .inr (.inl h3)
    · simp only [Trace.act, List.mem_append, List.mem_singleton, not_or]
      exact ⟨h.nent, by simp⟩
    · intro x hx
      simp only [Trace.act, List.mem_append]
      exact .inl (h.span x hx)
    · intro x hx
      simp only [Trace.act, List.mem_append, List.mem_singleton, List.mem_cons] at hx ⊢
      rcases hx with rfl | hx
      · exact .inr (.inl rfl)
      · exact .inl (h.open_ x hx)
    · intro i n p hx hp hq
      dsimp only at hp
      rw [htr] at hp
      have hne1 : T.path ≠ p := by
        intro he
        have := hq.2 l'
        rw [count_enter, ← he, if_pos rfl] at this
        omega
      have hne2 : T.path ++ [l'] ≠ p := by
        intro he
        have := hq.1
        rw [count_enter, ← he, if_pos rfl] at this
        omega
      rcases set_get hx with ⟨rfl, rfl⟩ | ⟨_, h3⟩
      · exact absurd (h.pos.fn hp) hne1
      · obtain ⟨h6, h7, h8⟩ := h.num i n p h3 hp (quiet_enter hq)
        refine ⟨h6, fun h0 => ⟨(h7 h0).1, fun b hb => ?_⟩, h8⟩
        simp only [Trace.act, List.mem_cons] at hb
        rcases hb with hb | hb
        · cases hb; exact absurd rfl hne2
        · exact (h7 h0).2 b hb

theorem exit_inv {t₀ : W} {f : Frame L} {T : Trace L} (h : Inv t₀ f T) (t : W) :
    ∃ f', exit t f = .ok f' ∧ Inv t₀ f' (T.act (.exit t)) := by
  have hlt := h.pos.lt
  rw [tree_len] at hlt
  have hn := List.getElem?_eq_getElem hlt
  generalize hnode : f.nodes[f.cur] = node at hn
  have ha : at' f.nodes f.cur = .ok node := by unfold at'; rw [hn]
  unfold exit
  rw [ha]
  refine ⟨_, rfl, ?_⟩
  have htr : tree (f.nodes.set f.cur { node with fin := t, heir := node.heir + (t - node.begin) }) = tree f.nodes :=
    tree_set hn rfl rfl
  have hroot : ∀ n, (f.nodes.set f.cur { node with fin := t, heir := node.heir + (t - node.begin) })[0]? = some n → n.parent = 0 := by
    intro n hx
    rcases set_get hx with ⟨h3, rfl⟩ | ⟨_, h3⟩
    · exact h.root node (by rw [h3]; exact hn)
    · exact h.root _ h3
  have hkid : ∀ i n, (f.nodes.set f.cur { node with fin := t, heir := node.heir + (t - node.begin) })[i]? = some n →
      n.children = kids (tree f.nodes) i := by
    intro i n hx
    rcases set_get hx with ⟨rfl, rfl⟩ | ⟨_, h3⟩
    · exact h.kid _ node hn
    · exact h.kid _ _ h3
  have hent : (T.act (.exit t)).enters = T.enters := by
    unfold Trace.act; dsimp only; split <;> rfl
  have hquiet : ∀ p, Quiet (T.act (.exit t)) p → Quiet T p := by
    intro p hq
    unfold Quiet Trace.count at hq ⊢
    rw [hent] at hq
    exact hq
  cases hst : T.stack with
  | nil =>
    have hT : T.act (.exit t) = T := by unfold Trace.act; dsimp only; rw [hst]
    have hpath : T.path = [] := by unfold Trace.path; rw [hst]
    have hpos := h.pos
    rw [hpath] at hpos
    have h0 := hpos.nil_inv
    rw [hT]
    constructor
    · dsimp only; rw [htr]; exact h.ti
    · exact hroot
    · dsimp only; rw [htr]; exact hkid
    · dsimp only
      rw [htr, hpath]
      have := h.root node (by rw [← h0]; exact hn)
      rw [this, ← h0]
      exact hpos
    · exact h.chain
    · dsimp only; rw [htr]; exact h.ent
    · dsimp only; rw [htr]; exact h.back
    · exact h.nent
    · exact h.span
    · exact h.open_
    · intro i n p hx hp hq
      dsimp only at hp
      rw [htr] at hp
      rcases set_get hx with ⟨rfl, rfl⟩ | ⟨_, h3⟩
      · obtain ⟨h6, h7, h8⟩ := h.num _ _ p hn hp hq
        exact ⟨h6, fun h9 => absurd h0 h9, h8⟩
      · exact h.num _ _ p h3 hp hq
  | cons x r =>
    have hch := h.chain
    rw [hst] at hch
    cases hch with
    | cons s l b hs =>
    have hpath : T.path = s.path ++ [l] := by rw [Trace.path, hst]
    have hT : T.act (.exit t) = { T with stack := s.stack, spans := T.spans ++ [(T.path, b, t)] } := by
      unfold Trace.act; dsimp only; rw [hst, hpath]
    have hpos := h.pos
    rw [hpath] at hpos
    obtain ⟨hc0, q, hq1, hq2⟩ := hpos.snoc_inv
    have hpar : node.parent = q := by
      rw [tree_get hn] at hq1
      cases hq1; rfl
    have hTpath : (T.act (.exit t)).path = s.path := by
      rw [hT]; unfold Trace.path; rfl
    have htot : ∀ p, (T.act (.exit t)).total p = T.total p + if T.path = p then t - b else 0 := by
      intro p
      rw [hT]
      unfold Trace.total
      simp only [List.filter_append, List.map_append, List.sum_append]
      congr 1
      simp only [List.filter_cons, List.filter_nil]
      by_cases c : T.path = p
      · rw [if_pos c, if_pos (by simpa using c)]; simp
      · rw [if_neg c, if_neg (by simpa using c)]; simp
    have hmem : ∀ y, y ∈ (T.act (.exit t)).stack → y ∈ T.stack := by
      intro y hy
      rw [hT] at hy
      rw [hst]
      exact .tail _ hy
    constructor
    · dsimp only; rw [htr]; exact h.ti
    · exact hroot
    · dsimp only; rw [htr]; exact hkid
    · dsimp only
      rw [htr, hTpath, hpar]
      exact hq2
    · rw [hT]; exact hs
    · dsimp only; rw [htr, hent]; exact h.ent
    · dsimp only; rw [htr, hent]; exact h.back
    · rw [hent]; exact h.nent
    · rw [hent]
      intro y hy
      rw [hT] at hy
      rcases List.mem_append.1 hy with hy | hy
      · exact h.span y hy
      · rw [List.mem_singleton] at hy
        subst hy
        have := h.open_ (s.path ++ [l], b) (by rw [hst]; exact .head _)
        rw [← hpath] at this
        exact this
    · rw [hent]
      intro y hy
      exact h.open_ y (hmem y hy)
    · intro i n p hx hp hq
      dsimp only at hp
      rw [htr] at hp
      have hq' := hquiet p hq
      rcases set_get hx with ⟨rfl, rfl⟩ | ⟨h2, h3⟩
      · obtain ⟨h6, h7, h8⟩ := h.num _ _ p hn hp hq'
        have hpe := h.pos.fn hp
        refine ⟨h6, fun h9 => ⟨?_, fun b' hb => (h7 h9).2 b' (hmem _ hb)⟩, fun h9 => absurd h9 hc0⟩
        dsimp only
        rw [htot, if_pos hpe, (h7 h9).1, (h7 h9).2 b (by rw [hst, ← hpe, hpath]; exact .head _)]
      · obtain ⟨h6, h7, h8⟩ := h.num _ _ p h3 hp hq'
        refine ⟨h6, fun h9 => ⟨?_, fun b' hb => (h7 h9).2 b' (hmem _ hb)⟩, h8⟩
        rw [htot, if_neg, (h7 h9).1]
        · simp
        · intro he
          exact h2 (h.ti.inj hp (he ▸ h.pos))

theorem steps_inv {t₀ : W} : ∀ (es : List (Ev L)) (f : Frame L) (T : Trace L), Inv t₀ f T →
    ∃ f', steps f es = .ok f' ∧ Inv t₀ f' ((es.map toAct).foldl Trace.act T)
  | [], f, T, h => ⟨f, rfl, h⟩
  | .enter l t :: es, f, T, h => by
    obtain ⟨f', h1, h2⟩ := enter_inv h l t
    obtain ⟨f'', h3, h4⟩ := steps_inv es f' _ h2
    refine ⟨f'', ?_, h4⟩
    simp only [steps, step, h1]
    exact h3
  | .exit t :: es, f, T, h => by
    obtain ⟨f', h1, h2⟩ := exit_inv h t
    obtain ⟨f'', h3, h4⟩ := steps_inv es f' _ h2
    refine ⟨f'', ?_, h4⟩
    simp only [steps, step, h1]
    exact h3

theorem begin_inv (root : L) (t₀ : W) : ∃ f, begin root t₀ {} = .ok f ∧ Inv t₀ f {} := by
  refine ⟨{ cur := 0, nodes := [Node.make root 0 t₀] }, rfl, ?_⟩
  have hp : PathOf (tree [Node.make root 0 t₀]) 0 [] := .root (by simp [tree])
  have hinv : ∀ i p, PathOf (tree [Node.make root 0 t₀]) i p → i = 0 ∧ p = [] := by
    intro i p h
    have := h.lt
    simp only [tree, List.map_cons, List.map_nil, List.length_cons, List.length_nil] at this
    have : i = 0 := by omega
    subst this
    exact ⟨rfl, h.fn hp⟩
  constructor
  · refine ⟨by simp [tree], ?_, ?_⟩
    · intro i l q h0 h
      rcases List.getElem?_eq_some_iff.1 h with ⟨h, _⟩
      simp [tree] at h
      omega
    · intro i j l q h0 _ h
      rcases List.getElem?_eq_some_iff.1 h with ⟨h, _⟩
      simp [tree] at h
      omega
  · intro n h; simp at h; subst h; rfl
  · intro i n h
    rcases List.getElem?_eq_some_iff.1 h with ⟨h1, h2⟩
    simp at h1
    subst h1
    simp at h2
    subst h2
    rfl
  · exact hp
  · exact .nil
  · intro p h; simp at h
  · intro i p h; exact .inl (hinv i p h).2
  · simp
  · intro x h; simp at h
  · intro x h; simp at h
  · intro i n p h hp' _
    obtain ⟨rfl, rfl⟩ := hinv i p hp'
    simp at h
    subst h
    exact ⟨rfl, fun h => absurd rfl h, fun _ => rfl⟩

/-! ## Self times -/

/-- The inclusive time of a node. -/
def heirOf (ns : List (Node L)) (i : Nat) : W :=
  match ns[i]? with
  | some n => n.heir
  | none => 0

/-- Self time of node `i` is its inclusive time minus that of its children. -/
def Good (ns : List (Node L)) (i : Nat) : Prop :=
  ∀ n, ns[i]? = some n → n.self = n.heir - (n.children.map (heirOf ns)).sum

/-- The same nodes, up to the self times. -/
def Same (ns ns' : List (Node L)) : Prop :=
  ∀ i : Nat, (ns'[i]?.map fun n : Node L => { n with self := 0 }) = (ns[i]?.map fun n : Node L => { n with self := 0 })

omit [DecidableEq L] in
theorem Same.refl (ns : List (Node L)) : Same ns ns := fun _ => rfl

omit [DecidableEq L] in
theorem Same.trans {a b c : List (Node L)} (h : Same a b) (h' : Same b c) : Same a c := fun i => (h' i).trans (h i)

omit [DecidableEq L] in
theorem Same.heir {a b : List (Node L)} (h : Same a b) (i : Nat) : heirOf b i = heirOf a i := by
  have := h i
  unfold heirOf
  cases h1 : a[i]? <;> cases h2 : b[i]? <;> rw [h1, h2] at this <;> simp at this
  · exact this.2.2.2.1

omit [DecidableEq L] in
theorem Same.get {a b : List (Node L)} (h : Same a b) {i : Nat} {n : Node L} (hn : b[i]? = some n) :
    ∃ m, a[i]? = some m ∧ n.loc = m.loc ∧ n.begin = m.begin ∧ n.fin = m.fin ∧ n.heir = m.heir ∧ n.calls = m.calls ∧
      n.parent = m.parent ∧ n.children = m.children := by
  have := h i
  rw [hn] at this
  cases h1 : a[i]? <;> rw [h1] at this <;> simp at this
  exact ⟨_, rfl, by grind⟩

omit [DecidableEq L] in
theorem Same.get' {a b : List (Node L)} (h : Same a b) {i : Nat} {m : Node L} (hm : a[i]? = some m) :
    ∃ n, b[i]? = some n ∧ n.children = m.children := by
  have := h i
  rw [hm] at this
  cases h1 : b[i]? <;> rw [h1] at this <;> simp at this
  exact ⟨_, rfl, by grind⟩

omit [DecidableEq L] in
theorem Same.len {a b : List (Node L)} (h : Same a b) : b.length = a.length := by
  have key : ∀ i, i < b.length ↔ i < a.length := by
    intro i
    have := h i
    constructor
    · intro hi
      obtain ⟨m, hm, _⟩ := h.get (List.getElem?_eq_getElem hi)
      rcases List.getElem?_eq_some_iff.1 hm with ⟨h, _⟩
      exact h
    · intro hi
      obtain ⟨m, hm, _⟩ := h.get' (List.getElem?_eq_getElem hi)
      rcases List.getElem?_eq_some_iff.1 hm with ⟨h, _⟩
      exact h
  have h1 := key a.length
  have h2 := key b.length
  omega

omit [DecidableEq L] in
theorem Good.same {a b : List (Node L)} (h : Same a b) {i : Nat} (hg : Good a i) (he : b[i]? = a[i]?) : Good b i := by
  intro n hn
  rw [he] at hn
  rw [hg n hn]
  congr 2
  apply List.map_congr_left
  intro c _
  exact (h.heir c).symm

/-- `j` is `i` or below it. -/
inductive Reach (ns : List (Node L)) : Nat → Nat → Prop where
  | refl (i : Nat) : Reach ns i i
  | step {i c j : Nat} {n : Node L} : ns[i]? = some n → c ∈ n.children → Reach ns c j → Reach ns i j

omit [DecidableEq L] in
theorem Reach.trans {ns : List (Node L)} {i j k : Nat} (h : Reach ns i j) (h' : Reach ns j k) : Reach ns i k := by
  induction h with
  | refl => exact h'
  | step h1 h2 _ ih => exact .step h1 h2 (ih h')

omit [DecidableEq L] in
theorem Reach.same {a b : List (Node L)} (h : Same a b) {i j : Nat} (hr : Reach a i j) : Reach b i j := by
  induction hr with
  | refl i => exact .refl i
  | step h1 h2 _ ih =>
    obtain ⟨m, h3, h4⟩ := h.get' h1
    exact .step h3 (h4 ▸ h2) ih

/-- Children come after their parent. -/
def Down (ns : List (Node L)) : Prop := ∀ i n, ns[i]? = some n → ∀ c ∈ n.children, i < c ∧ c < ns.length

omit [DecidableEq L] in
theorem Down.same {a b : List (Node L)} (h : Same a b) (hd : Down a) : Down b := by
  intro i n hn c hc
  obtain ⟨m, hm, _, _, _, _, _, _, h1⟩ := h.get hn
  rw [h1] at hc
  rw [h.len]
  exact hd i m hm c hc

/-- What a call achieves. -/
structure Done (a b : List (Node L)) (js : Nat → Prop) : Prop where
  same : Same a b
  keep : ∀ j, b[j]? = a[j]? ∨ Good b j
  good : ∀ j, js j → Good b j

omit [DecidableEq L] in
theorem Done.trans {a b c : List (Node L)} {p q : Nat → Prop} (h : Done a b p) (h' : Done b c q) :
    Done a c (fun j => p j ∨ q j) := by
  refine ⟨h.same.trans h'.same, fun j => ?_, fun j hj => ?_⟩
  · rcases h'.keep j with h1 | h1
    · rcases h.keep j with h2 | h2
      · exact .inl (h1.trans h2)
      · exact .inr (h2.same h'.same h1)
    · exact .inr h1
  · rcases hj with hj | hj
    · rcases h'.keep j with h1 | h1
      · exact (h.good j hj).same h'.same h1
      · exact h1
    · exact h'.good j hj

omit [DecidableEq L] in
theorem at_ok {ns : List (Node L)} {i : Nat} (h : i < ns.length) : at' ns i = .ok ns[i] := by
  unfold at'; rw [List.getElem?_eq_getElem h]

omit [DecidableEq L] in
theorem same_set {ns : List (Node L)} {i : Nat} {n : Node L} (h : ns[i]? = some n) (x : W) :
    Same ns (ns.set i { n with self := x }) := by
  intro j
  rw [List.getElem?_set]
  split
  · subst i
    have : j < ns.length := by
      rcases List.getElem?_eq_some_iff.1 h with ⟨h, _⟩
      exact h
    rw [if_pos this, h]
    rfl
  · rfl

omit [DecidableEq L] in
theorem self_loop {d : Nat}
    (ih : ∀ (i : Nat) (ns : List (Node L)), Down ns → i < ns.length → ns.length ≤ i + d →
      ∃ ns', selfTimes d i ns = .ok ns' ∧ Done ns ns' (Reach ns i)) :
    ∀ (cs : List Nat) (ns : List (Node L)) (sum : W), Down ns → (∀ c ∈ cs, c < ns.length ∧ ns.length ≤ c + d) →
      ∃ ns', selfLoop (selfTimes d) cs ns sum = .ok (ns', sum + (cs.map (heirOf ns)).sum) ∧
        Done ns ns' (fun j => ∃ c ∈ cs, Reach ns c j)
  | [], ns, sum, _, _ => by
    refine ⟨ns, ?_, .refl ns, fun _ => .inl rfl, ?_⟩
    · unfold selfLoop; simp
    · rintro j ⟨c, hc, _⟩; simp at hc
  | c :: cs, ns, sum, hd, hc => by
    obtain ⟨hc1, hc2⟩ := hc c (.head _)
    obtain ⟨ns1, h1, h2⟩ := ih c ns hd hc1 hc2
    have hl := h2.same.len
    have h3 : at' ns1 c = .ok ns1[c] := at_ok (by omega)
    have h4 : ns1[c].heir = heirOf ns c := by
      rw [← h2.same.heir c]
      unfold heirOf
      rw [List.getElem?_eq_getElem (by omega)]
    obtain ⟨ns2, h5, h6⟩ := self_loop ih cs ns1 (sum + ns1[c].heir) (hd.same h2.same)
      (fun e he => by rw [hl]; exact hc e (.tail _ he))
    refine ⟨ns2, ?_, ?_⟩
    · unfold selfLoop
      rw [h1]
      dsimp only
      rw [h3]
      dsimp only
      rw [h5, h4]
      have : cs.map (heirOf ns1) = cs.map (heirOf ns) := List.map_congr_left fun e _ => h2.same.heir e
      rw [this, List.map_cons, List.sum_cons, BitVec.add_assoc]
    · have h7 := h2.trans h6
      refine ⟨h7.same, h7.keep, ?_⟩
      rintro j ⟨e, he, hr⟩
      apply h7.good
      cases he with
      | head => exact .inl hr
      | tail _ he => exact .inr ⟨e, he, hr.same h2.same⟩

omit [DecidableEq L] in
theorem self_times : ∀ (d i : Nat) (ns : List (Node L)), Down ns → i < ns.length → ns.length ≤ i + d →
    ∃ ns', selfTimes d i ns = .ok ns' ∧ Done ns ns' (Reach ns i)
  | 0, i, ns, _, h1, h2 => by omega
  | d + 1, i, ns, hd, h1, h2 => by
    have hn := List.getElem?_eq_getElem h1
    generalize hnode : ns[i] = node at hn
    obtain ⟨ns1, h3, h4⟩ := self_loop (self_times d) node.children ns 0 hd (by
      intro c hc
      have := hd i node hn c hc
      omega)
    have hl := h4.same.len
    have hi1 : i < ns1.length := by omega
    have hn1 := List.getElem?_eq_getElem hi1
    obtain ⟨m, hm, _, _, _, hh, _, _, hch⟩ := h4.same.get hn1
    rw [hn] at hm
    cases hm
    have hs := same_set hn1 (ns1[i].heir - (0 + (node.children.map (heirOf ns)).sum))
    generalize hn1' : ns1[i] = n1 at hn1 hch hs
    generalize hns2 : ns1.set i { n1 with self := n1.heir - (0 + (node.children.map (heirOf ns)).sum) } = ns2 at hs
    have hg : Good ns2 i := by
      intro n hn2
      rw [← hns2] at hn2
      rcases set_get hn2 with ⟨_, rfl⟩ | ⟨hne, _⟩
      · show n1.heir - (0 + (node.children.map (heirOf ns)).sum) = n1.heir - (n1.children.map (heirOf ns2)).sum
        rw [hch, show (0 : W) + (node.children.map (heirOf ns)).sum = _ from BitVec.zero_add _]
        congr 2
        exact List.map_congr_left fun e _ => ((hs.heir e).trans (h4.same.heir e)).symm
      · exact absurd rfl hne
    refine ⟨ns2, ?_, ?_⟩
    · unfold selfTimes
      rw [at_ok h1, hnode]
      dsimp only
      rw [h3]
      dsimp only
      rw [at_ok hi1, hn1', ← hns2]
    · have h5 : Done ns1 ns2 (· = i) := by
        refine ⟨hs, fun j => ?_, fun j hj => hj ▸ hg⟩
        by_cases c : j = i
        · exact .inr (c ▸ hg)
        · refine .inl ?_
          rw [← hns2, List.getElem?_set_ne (fun h => c h.symm)]
      have h6 := h4.trans h5
      refine ⟨h6.same, h6.keep, fun j hj => h6.good j ?_⟩
      cases hj with
      | refl => exact .inr rfl
      | step h7 h8 h9 =>
        rw [hn] at h7
        cases h7
        exact .inl ⟨_, h8, h9⟩


/-! ## The whole frame -/

theorem finish_die {t₀ t : W} {f : Frame L} {T : Trace L} (h : Inv t₀ f T) (hs : T.stack ≠ []) :
    finish t f = .error .die := by
  unfold finish
  rw [if_neg]
  intro h0
  have hp := h.pos
  cases hst : T.stack with
  | nil => exact hs hst
  | cons x r =>
    have hch := h.chain
    rw [hst] at hch
    cases hch with
    | cons s l b hs =>
      have hpath : T.path = s.path ++ [l] := by rw [Trace.path, hst]
      rw [hpath] at hp
      exact hp.snoc_inv.1 h0

theorem finish_ok {t₀ t : W} {f : Frame L} {T : Trace L} (h : Inv t₀ f T) (hs : T.stack = []) :
    ∃ f' root, finish t f = .ok f' ∧ f.nodes[0]? = some root ∧
      Same (f.nodes.set 0 { root with fin := t, heir := t - root.begin }) f'.nodes ∧ ∀ i, i < f'.nodes.length → Good f'.nodes i := by
  have hpath : T.path = [] := by rw [Trace.path, hs]
  have h0 : f.cur = 0 := by
    have := h.pos
    rw [hpath] at this
    exact this.nil_inv
  have hpos := h.ti.pos
  rw [tree_len] at hpos
  have hr := List.getElem?_eq_getElem hpos
  generalize hroot : f.nodes[0] = root at hr
  have htr : tree (f.nodes.set 0 { root with fin := t, heir := t - root.begin }) = tree f.nodes := tree_set hr rfl rfl
  have hkid : ∀ i n, (f.nodes.set 0 { root with fin := t, heir := t - root.begin })[i]? = some n →
      n.children = kids (tree f.nodes) i := by
    intro i n hx
    rcases set_get hx with ⟨rfl, rfl⟩ | ⟨_, h3⟩
    · exact h.kid _ root hr
    · exact h.kid _ _ h3
  generalize hns : f.nodes.set 0 { root with fin := t, heir := t - root.begin } = ns at htr hkid
  have hlen : ns.length = f.nodes.length := by rw [← hns]; simp
  have hdown : Down ns := by
    intro i n hn c hc
    rw [hkid i n hn, mem_kids] at hc
    obtain ⟨hc0, l, hc1⟩ := hc
    refine ⟨h.ti.par _ _ _ hc0 hc1, ?_⟩
    rcases List.getElem?_eq_some_iff.1 hc1 with ⟨hc, _⟩
    rw [tree_len] at hc
    omega
  obtain ⟨ns', h1, h2⟩ := self_times (f.nodes.length + 1) 0 ns hdown (by omega) (by omega)
  have hreach : ∀ i p, PathOf (tree f.nodes) i p → Reach ns 0 i := by
    intro i p hp
    induction hp with
    | root _ => exact .refl 0
    | @node i l q p hi hi2 hq ih =>
      have hql := hq.lt
      rw [tree_len] at hql
      have hqn := List.getElem?_eq_getElem (l := ns) (i := q) (by omega)
      exact ih.trans (.step hqn (by rw [hkid _ _ hqn, mem_kids]; exact ⟨hi, l, hi2⟩) (.refl _))
  refine ⟨{ f with nodes := ns' }, root, ?_, hr, ?_, ?_⟩
  · unfold finish
    rw [if_pos h0, at_ok hpos, hroot]
    dsimp only
    rw [hns, h1]
  · rw [hns]; exact h2.same
  · intro i hi
    dsimp only at hi
    rw [h2.same.len, hlen] at hi
    obtain ⟨p, hp⟩ := h.ti.ex i (by rw [tree_len]; exact hi)
    exact h2.good i (hreach i p hp)

omit [DecidableEq L] in
theorem Same.tree {a b : List (Node L)} (h : Same a b) : tree b = tree a := by
  apply List.ext_getElem?
  intro i
  have := h i
  unfold Prof.tree
  rw [List.getElem?_map, List.getElem?_map]
  cases h1 : a[i]? <;> cases h2 : b[i]? <;> rw [h1, h2] at this <;> simp at this
  · simp [this.1, this.2.2.2.2.2.1]

omit [DecidableEq L] in
theorem kids_nodup (tr : List (L × Nat)) (i : Nat) : (kids tr i).Nodup :=
  List.nodup_range.filter _

/-- Everything about a frame whose scopes were all left. -/
theorem frame_ok (root : L) (t₀ : W) (es : List (Ev L)) (t₁ : W) (hs : (trace (es.map toAct)).stack = []) :
    ∃ f g r, frame root t₀ es t₁ = .ok f ∧ Inv t₀ g (trace (es.map toAct)) ∧ g.nodes[0]? = some r ∧
      Same (g.nodes.set 0 { r with fin := t₁, heir := t₁ - r.begin }) f.nodes ∧
      tree f.nodes = tree g.nodes ∧ ∀ i, i < f.nodes.length → Good f.nodes i := by
  obtain ⟨f0, h1, h2⟩ := begin_inv root t₀
  obtain ⟨g, h3, h4⟩ := steps_inv es f0 _ h2
  obtain ⟨f, r, h5, h6, h7, h8⟩ := finish_ok (t := t₁) h4 hs
  refine ⟨f, g, r, ?_, h4, h6, h7, ?_, h8⟩
  · unfold frame
    simp only [h1, h3, h5]
  · rw [h7.tree]
    exact tree_set h6 rfl rfl

theorem frame_die (root : L) (t₀ : W) (es : List (Ev L)) (t₁ : W) (hs : (trace (es.map toAct)).stack ≠ []) :
    frame root t₀ es t₁ = .error .die := by
  obtain ⟨f0, h1, h2⟩ := begin_inv root t₀
  obtain ⟨g, h3, h4⟩ := steps_inv es f0 _ h2
  unfold frame
  simp only [h1, h3]
  exact finish_die h4 hs

end Rpp.Prof
