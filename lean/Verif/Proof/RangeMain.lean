import Verif.Proof.Range
import Mathlib.Tactic.Linarith

/-! The chain of blocks of the range allocator: tiling of the heap, neighbours, sums. -/

namespace Rpp.RA
open Rpp

/-- The blocks `l` cover `[s, e)` in this order, without gaps. -/
def Tile (M : Nat → Option RBlock) : Nat → List Nat → Nat → Prop
  | s, [], e => s = e
  | s, a :: l, e => ∃ b, M a = some b ∧ b.start = s ∧ 0 < b.size ∧ Tile M (s + b.size) l e

variable {M M' : Nat → Option RBlock}

theorem Tile_append {l1 l2 : List Nat} : ∀ {s e : Nat},
    Tile M s (l1 ++ l2) e ↔ ∃ m, Tile M s l1 m ∧ Tile M m l2 e := by
  induction l1 with
  | nil => intro s e; simp [Tile]
  | cons a l1 ih =>
    intro s e
    constructor
    · rintro ⟨b, h1, h2, h3, h4⟩
      obtain ⟨m, h5, h6⟩ := ih.mp h4
      exact ⟨m, ⟨b, h1, h2, h3, h5⟩, h6⟩
    · rintro ⟨m, ⟨b, h1, h2, h3, h5⟩, h6⟩
      exact ⟨b, h1, h2, h3, ih.mpr ⟨m, h5, h6⟩⟩

theorem Tile_congr {l : List Nat} : ∀ {s e : Nat}, Tile M s l e →
    (∀ a ∈ l, ∀ r, M a = some r → ∃ r', M' a = some r' ∧ r'.start = r.start ∧ r'.size = r.size) →
    Tile M' s l e := by
  induction l with
  | nil => intro s e h _; exact h
  | cons a l ih =>
    rintro s e ⟨b, h1, h2, h3, h4⟩ hc
    obtain ⟨b', e1, e2, e3⟩ := hc a List.mem_cons_self b h1
    exact ⟨b', e1, by rw [e2, h2], by rw [e3]; exact h3,
      by rw [e3]; exact ih h4 (fun x hx => hc x (List.mem_cons_of_mem _ hx))⟩

theorem Tile_le {l : List Nat} : ∀ {s e : Nat}, Tile M s l e → s + l.length ≤ e := by
  induction l with
  | nil => intro s e h; have : s = e := h; simp [this]
  | cons a l ih =>
    rintro s e ⟨b, h1, h2, h3, h4⟩
    have := ih h4
    simp only [List.length_cons]
    omega

theorem Tile_bound {l : List Nat} : ∀ {s e : Nat}, Tile M s l e → ∀ a ∈ l, ∀ b, M a = some b →
    s ≤ b.start ∧ b.start + b.size ≤ e ∧ 0 < b.size := by
  induction l with
  | nil => intro s e _ a ha; cases ha
  | cons c l ih =>
    rintro s e ⟨b, h1, h2, h3, h4⟩ a ha r hr
    have hle := Tile_le h4
    rcases List.mem_cons.mp ha with rfl | ha
    · rw [h1] at hr; injection hr with hr; subst hr
      omega
    · have := ih h4 a ha r hr
      omega

theorem Tile_disjoint {l : List Nat} : ∀ {s e : Nat}, Tile M s l e → ∀ a ∈ l, ∀ c ∈ l, a ≠ c →
    ∀ x y, M a = some x → M c = some y → x.start + x.size ≤ y.start ∨ y.start + y.size ≤ x.start := by
  induction l with
  | nil => intro s e _ a ha; cases ha
  | cons d l ih =>
    rintro s e ⟨b, h1, h2, h3, h4⟩ a ha c hc hne x y hx hy
    rcases List.mem_cons.mp ha with rfl | ha
    · rcases List.mem_cons.mp hc with rfl | hc
      · exact absurd rfl hne
      · rw [h1] at hx; injection hx with hx; subst hx
        have := Tile_bound h4 c hc y hy
        left; omega
    · rcases List.mem_cons.mp hc with e | hc
      · rw [e, h1] at hy; injection hy with hy; subst hy
        have := Tile_bound h4 a ha x hx
        right; omega
      · exact ih h4 a ha c hc hne x y hx hy

/-- Whether there is a free block. -/
def fr (M : Nat → Option RBlock) (a : Nat) : Bool := (M a).elim false RBlock.free

/-- No two neighbours are both free. -/
def NoAdj (f : Nat → Bool) : List Nat → Prop
  | a :: c :: l => (f a = false ∨ f c = false) ∧ NoAdj f (c :: l)
  | _ => True

theorem NoAdj_append {f : Nat → Bool} {l1 l2 : List Nat} :
    NoAdj f (l1 ++ l2) ↔ NoAdj f l1 ∧ NoAdj f l2 ∧
      (∀ a c, l1.getLast? = some a → l2.head? = some c → f a = false ∨ f c = false) := by
  induction l1 with
  | nil => simp [NoAdj]
  | cons a l1 ih =>
    cases l1 with
    | nil =>
      cases l2 with
      | nil => simp [NoAdj]
      | cons c l2 => simp [NoAdj]; tauto
    | cons d l1 =>
      have e : (a :: d :: l1).getLast? = (d :: l1).getLast? := by simp [List.getLast?_cons]
      rw [e, List.cons_append, List.cons_append]
      simp only [NoAdj]
      rw [← List.cons_append, ih]
      tauto

theorem NoAdj_mono {f g : Nat → Bool} {l : List Nat} (h : NoAdj f l)
    (hc : ∀ a ∈ l, f a = false → g a = false) : NoAdj g l := by
  induction l with
  | nil => trivial
  | cons a l ih =>
    cases l with
    | nil => trivial
    | cons c l =>
      refine ⟨?_, ih h.2 (fun x hx => hc x (List.mem_cons_of_mem _ hx))⟩
      rcases h.1 with h1 | h1
      · exact Or.inl (hc a List.mem_cons_self h1)
      · exact Or.inr (hc c (List.mem_cons_of_mem _ List.mem_cons_self) h1)

/-- Sum of a weight over the blocks. -/
def wsum (w : Option RBlock → Nat) (M : Nat → Option RBlock) (l : List Nat) : Nat :=
  (l.map (fun i => w (M i))).sum

theorem wsum_append (w : Option RBlock → Nat) (l1 l2 : List Nat) :
    wsum w M (l1 ++ l2) = wsum w M l1 + wsum w M l2 := by simp [wsum]

theorem wsum_cons (w : Option RBlock → Nat) (a : Nat) (l : List Nat) :
    wsum w M (a :: l) = w (M a) + wsum w M l := by simp [wsum]

theorem wsum_congr {w : Option RBlock → Nat} {l : List Nat} (h : ∀ a ∈ l, w (M' a) = w (M a)) :
    wsum w M' l = wsum w M l := by
  unfold wsum
  rw [List.map_congr_left h]

theorem wsum_upd {w : Option RBlock → Nat} {l : List Nat} (hn : l.Nodup) {i : Nat} (hi : i ∈ l)
    (v : Option RBlock) : wsum w (upd M i v) l + w (M i) = wsum w M l + w v := by
  obtain ⟨l1, l2, rfl⟩ := List.append_of_mem hi
  rw [List.nodup_append] at hn
  obtain ⟨_, n2, n3⟩ := hn
  rw [List.nodup_cons] at n2
  rw [wsum_append, wsum_append, wsum_cons, wsum_cons, upd_same,
    wsum_congr (M := M) (M' := upd M i v) (l := l1), wsum_congr (M := M) (M' := upd M i v) (l := l2)]
  · omega
  · intro a ha; rw [upd_ne]; rintro rfl; exact n2.1 ha
  · intro a ha; rw [upd_ne]; rintro rfl; exact n3 a ha a List.mem_cons_self rfl

/-- Size if (not) free. -/
def szf (f : Bool) : Option RBlock → Nat
  | some b => if b.free = f then b.size else 0
  | none => 0

/-- Count if (not) free. -/
def cnf (f : Bool) : Option RBlock → Nat
  | some b => if b.free = f then 1 else 0
  | none => 0

theorem Tile_sum {l : List Nat} : ∀ {s e : Nat}, Tile M s l e →
    s + wsum (szf true) M l + wsum (szf false) M l = e := by
  induction l with
  | nil => intro s e h; have : s = e := h; simp [wsum, this]
  | cons a l ih =>
    rintro s e ⟨b, h1, h2, h3, h4⟩
    have := ih h4
    rw [wsum_cons, wsum_cons, h1]
    cases hf : b.free <;> simp [szf, hf] <;> omega

theorem cn_sum {l : List Nat} (h : ∀ a ∈ l, ∃ b, M a = some b) :
    wsum (cnf true) M l + wsum (cnf false) M l = l.length := by
  induction l with
  | nil => rfl
  | cons a l ih =>
    obtain ⟨b, hb⟩ := h a List.mem_cons_self
    have := ih (fun x hx => h x (List.mem_cons_of_mem _ hx))
    rw [wsum_cons, wsum_cons, hb]
    simp only [List.length_cons]
    cases hf : b.free <;> simp [cnf, hf] <;> omega

/-- The chain of blocks is in order. -/
structure MainInv (M : Nat → Option RBlock) (L : List Nat) (cap : Nat) : Prop where
  nodup : L.Nodup
  dom : ∀ i, (∃ b, M i = some b) ↔ i ∈ L
  seg : Seg RBlock.next RBlock.prev M none L none
  tile : Tile M 0 L cap
  adj : NoAdj (fr M) L

/-- Blocks in use: start, offset and size. -/
def live (M : Nat → Option RBlock) (i : Nat) : Option (Nat × Nat × Nat) :=
  match M i with
  | some b => if b.free then none else some (b.start, b.offset, b.size)
  | none => none

/-- Changing members other than links, start and size of a block. -/
theorem MainInv_set {L : List Nat} {cap : Nat} (h : MainInv M L cap) {b : Nat} {mb mb' : RBlock}
    (hb : M b = some mb) (e1 : mb'.next = mb.next) (e2 : mb'.prev = mb.prev)
    (e3 : mb'.start = mb.start) (e4 : mb'.size = mb.size)
    (hadj : mb'.free = false ∨ mb.free = true ∨
      ∀ l1 l2, L = l1 ++ b :: l2 → (∀ a, l1.getLast? = some a → fr M a = false) ∧
        (∀ a, l2.head? = some a → fr M a = false)) :
    MainInv (upd M b (some mb')) L cap := by
  have hm : ∀ a r, M a = some r → ∃ r', upd M b (some mb') a = some r' ∧ r'.next = r.next ∧
      r'.prev = r.prev ∧ r'.start = r.start ∧ r'.size = r.size := by
    intro a r hr
    by_cases e : a = b
    · subst e
      rw [hb] at hr; injection hr with hr; subst hr
      exact ⟨mb', upd_same _ _ _, e1, e2, e3, e4⟩
    · exact ⟨r, by rw [upd_ne _ _ e]; exact hr, rfl, rfl, rfl, rfl⟩
  have hfr : ∀ a, a ≠ b → fr (upd M b (some mb')) a = fr M a := by
    intro a ha; unfold fr; rw [upd_ne _ _ ha]
  have hfb : fr (upd M b (some mb')) b = mb'.free := by unfold fr; rw [upd_same]; rfl
  have hfb0 : fr M b = mb.free := by unfold fr; rw [hb]; rfl
  refine ⟨h.nodup, ?_, ?_, ?_, ?_⟩
  · intro i
    rw [← h.dom i]
    by_cases e : i = b
    · subst e; rw [upd_same]; simp [hb]
    · rw [upd_ne _ _ e]
  · exact Seg_congr h.seg (fun a _ r hr => by
      obtain ⟨r', q1, q2, q3, _⟩ := hm a r hr
      exact ⟨r', q1, q2, q3⟩)
  · exact Tile_congr h.tile (fun a _ r hr => by
      obtain ⟨r', q1, _, _, q4, q5⟩ := hm a r hr
      exact ⟨r', q1, q4, q5⟩)
  · rcases hadj with h1 | h1 | h1
    · refine NoAdj_mono h.adj (fun a _ ha => ?_)
      by_cases e : a = b
      · rw [e, hfb]; exact h1
      · rw [hfr a e]; exact ha
    · refine NoAdj_mono h.adj (fun a _ ha => ?_)
      by_cases e : a = b
      · rw [e, hfb0, h1] at ha; cases ha
      · rw [hfr a e]; exact ha
    · have hbL : b ∈ L := (h.dom b).mp ⟨mb, hb⟩
      obtain ⟨l1, l2, hl⟩ := List.append_of_mem hbL
      obtain ⟨g1, g2⟩ := h1 l1 l2 hl
      have hn := h.nodup
      have ha := h.adj
      rw [hl] at hn ha ⊢
      rw [List.nodup_append] at hn
      obtain ⟨_, n2, n3⟩ := hn
      rw [List.nodup_cons] at n2
      have hne1 : ∀ a ∈ l1, a ≠ b := fun a hq => by rintro rfl; exact n3 a hq a List.mem_cons_self rfl
      have hne2 : ∀ a ∈ l2, a ≠ b := fun a hq => by rintro rfl; exact n2.1 hq
      rw [NoAdj_append] at ha ⊢
      refine ⟨NoAdj_mono ha.1 (fun a hq hx => by rw [hfr a (hne1 a hq)]; exact hx), ?_, ?_⟩
      · have e : b :: l2 = [b] ++ l2 := rfl
        have ha2 := ha.2.1
        rw [e, NoAdj_append] at ha2 ⊢
        refine ⟨trivial, NoAdj_mono ha2.2.1 (fun a hq hx => by rw [hfr a (hne2 a hq)]; exact hx), ?_⟩
        intro a c _ hc
        right
        rw [hfr c (hne2 c (List.mem_of_head? hc))]
        exact g2 c hc
      · intro a c hq _
        left
        rw [hfr a (hne1 a (List.mem_of_getLast? hq))]
        exact g1 a hq

/-- Splitting off the end of a block as a new free block. -/
theorem MainInv_split {l1 l2 : List Nat} {b n cap need : Nat} {mb mb' nb : RBlock}
    (h : MainInv M (l1 ++ b :: l2) cap) (hb : M b = some mb) (hfree : mb.free = true)
    (h0 : 0 < need) (hlt : need < mb.size) (hn : n ∉ l1 ++ b :: l2)
    (hM'b : M' b = some mb') (e1 : mb'.next = some n) (e2 : mb'.prev = mb.prev)
    (e3 : mb'.start = mb.start) (e4 : mb'.size = need) (e5 : mb'.free = false)
    (hM'n : M' n = some nb) (f1 : nb.next = mb.next) (f2 : nb.prev = some b)
    (f3 : nb.start = mb.start + need) (f4 : nb.size = mb.size - need)
    (hM' : ∀ j, j ≠ b → j ≠ n → M' j = if l2.head? = some j then
      (M j).map (fun x => { x with prev := some n }) else M j) :
    MainInv M' (l1 ++ b :: n :: l2) cap := by
  have hnd := h.nodup
  rw [List.nodup_append] at hnd
  obtain ⟨n1, n2, n3⟩ := hnd
  rw [List.nodup_cons] at n2
  have hbn : b ≠ n := by rintro rfl; exact hn (by simp)
  have hn1 : n ∉ l1 := fun hm => hn (List.mem_append_left _ hm)
  have hn2 : n ∉ l2 := fun hm => hn (List.mem_append_right _ (List.mem_cons_of_mem _ hm))
  have hb1 : b ∉ l1 := fun hm => n3 b hm b List.mem_cons_self rfl
  have ne1 : ∀ a ∈ l1, a ≠ b ∧ a ≠ n := fun a ha =>
    ⟨by rintro rfl; exact hb1 ha, by rintro rfl; exact hn1 ha⟩
  have ne2 : ∀ a ∈ l2, a ≠ b ∧ a ≠ n := fun a ha =>
    ⟨by rintro rfl; exact n2.1 ha, by rintro rfl; exact hn2 ha⟩
  have hl1 : ∀ a ∈ l1, M' a = M a := by
    intro a ha
    rw [hM' a (ne1 a ha).1 (ne1 a ha).2, if_neg]
    intro hh
    exact n3 a ha a (List.mem_cons_of_mem _ (List.mem_of_head? hh)) rfl
  have hl2 : ∀ a ∈ l2, ∀ r, M a = some r → ∃ r', M' a = some r' ∧ r'.next = r.next ∧
      r'.prev = (if l2.head? = some a then some n else r.prev) ∧ r'.start = r.start ∧
      r'.size = r.size ∧ r'.free = r.free := by
    intro a ha r hr
    rw [hM' a (ne2 a ha).1 (ne2 a ha).2, hr]
    split
    · exact ⟨_, rfl, rfl, rfl, rfl, rfl, rfl⟩
    · exact ⟨_, rfl, rfl, rfl, rfl, rfl, rfl⟩
  have hseg := h.seg
  rw [Seg_append, Seg_cons] at hseg
  obtain ⟨s1, ⟨mb0, q1, q2, q3⟩, s2⟩ := hseg
  rw [hb] at q1; injection q1 with q1; subst q1
  refine ⟨?_, ?_, ?_, ?_, ?_⟩
  · rw [List.nodup_append]
    refine ⟨n1, ?_, ?_⟩
    · rw [List.nodup_cons, List.nodup_cons]
      exact ⟨by simp only [List.mem_cons, not_or]; exact ⟨hbn, n2.1⟩, hn2, n2.2⟩
    · intro a ha c hc
      simp only [List.mem_cons] at hc
      rcases hc with rfl | rfl | hc
      · exact (ne1 a ha).1
      · exact (ne1 a ha).2
      · exact n3 a ha c (List.mem_cons_of_mem _ hc)
  · intro i
    by_cases hi : i = b
    · subst hi; simp [hM'b]
    · by_cases hi2 : i = n
      · subst hi2; simp [hM'n]
      · have : i ∈ l1 ++ b :: n :: l2 ↔ i ∈ l1 ++ b :: l2 := by simp [hi2]
        rw [this, ← h.dom i, hM' i hi hi2]
        split
        · cases M i <;> simp
        · rfl
  · rw [Seg_append, Seg_cons, Seg_cons]
    refine ⟨?_, ⟨mb', hM'b, by rw [e2, q2], by rw [e1]; rfl⟩, ⟨nb, hM'n, f2, by rw [f1, q3]⟩, ?_⟩
    · exact Seg_congr s1 (fun a ha r hr => ⟨r, by rw [hl1 a ha]; exact hr, rfl, rfl⟩)
    · refine Seg_rehead s2 n2.2 (fun a ha r hr => ?_)
      obtain ⟨r', g1, g2, g3, _⟩ := hl2 a ha r hr
      exact ⟨r', g1, g2, g3⟩
  · have ht := h.tile
    rw [Tile_append] at ht ⊢
    obtain ⟨m, t1, b0, t2, t3, t4, t5⟩ := ht
    rw [hb] at t2; injection t2 with t2; subst t2
    refine ⟨m, Tile_congr t1 (fun a ha r hr => ⟨r, by rw [hl1 a ha]; exact hr, rfl, rfl⟩),
      mb', hM'b, by rw [e3, t3], by rw [e4]; exact h0, nb, hM'n, by rw [f3, e4, t3], by rw [f4]; omega, ?_⟩
    have : m + mb'.size + nb.size = m + mb.size := by rw [e4, f4]; omega
    rw [this]
    refine Tile_congr t5 (fun a ha r hr => ?_)
    obtain ⟨r', g1, _, _, g4, g5, _⟩ := hl2 a ha r hr
    exact ⟨r', g1, g4, g5⟩
  · have ha := h.adj
    have hfb : fr M b = true := by unfold fr; rw [hb]; exact hfree
    have hfb' : fr M' b = false := by unfold fr; rw [hM'b]; exact e5
    have hf1 : ∀ a ∈ l1, fr M' a = fr M a := fun a ha => by unfold fr; rw [hl1 a ha]
    have hf2 : ∀ a ∈ l2, fr M' a = fr M a := by
      intro a ha
      obtain ⟨r, hr⟩ := (h.dom a).mpr (List.mem_append_right _ (List.mem_cons_of_mem _ ha))
      obtain ⟨r', g1, _, _, _, _, g6⟩ := hl2 a ha r hr
      unfold fr; rw [hr, g1]; exact g6
    rw [NoAdj_append] at ha ⊢
    obtain ⟨a1, a2, a3⟩ := ha
    have ee : b :: l2 = [b] ++ l2 := rfl
    rw [ee, NoAdj_append] at a2
    refine ⟨NoAdj_mono a1 (fun a ha hx => by rw [hf1 a ha]; exact hx), ⟨Or.inl hfb', ?_⟩, ?_⟩
    · have ee : n :: l2 = [n] ++ l2 := rfl
      rw [ee, NoAdj_append]
      refine ⟨trivial, NoAdj_mono a2.2.1 (fun a ha hx => by rw [hf2 a ha]; exact hx), ?_⟩
      intro a c _ hc
      right
      rw [hf2 c (List.mem_of_head? hc)]
      rcases a2.2.2 b c (by simp) hc with h1 | h1
      · rw [hfb] at h1; cases h1
      · exact h1
    · intro a c _ hc
      right
      simp only [List.head?_cons, Option.some.injEq] at hc
      rw [← hc]; exact hfb'

/-- Merging two neighbours that are not in the free lists. -/
theorem MainInv_merge {l1 l2 : List Nat} {p a cap : Nat} {pb ab pb' : RBlock}
    (h : MainInv M (l1 ++ p :: a :: l2) cap) (hp : M p = some pb) (ha : M a = some ab)
    (hM'p : M' p = some pb') (e1 : pb'.next = ab.next) (e2 : pb'.prev = pb.prev)
    (e3 : pb'.start = pb.start) (e4 : pb'.size = pb.size + ab.size) (e5 : pb'.free = false)
    (hM'a : M' a = none)
    (hM' : ∀ j, j ≠ p → j ≠ a → M' j = if l2.head? = some j then
      (M j).map (fun x => { x with prev := some p }) else M j) :
    MainInv M' (l1 ++ p :: l2) cap := by
  have hnd := h.nodup
  rw [List.nodup_append] at hnd
  obtain ⟨n1, n2, n3⟩ := hnd
  rw [List.nodup_cons, List.nodup_cons] at n2
  obtain ⟨np, na, n2⟩ := n2
  simp only [List.mem_cons, not_or] at np
  have ne1 : ∀ x ∈ l1, x ≠ p ∧ x ≠ a := fun x hx =>
    ⟨n3 x hx p (by simp), n3 x hx a (by simp)⟩
  have ne2 : ∀ x ∈ l2, x ≠ p ∧ x ≠ a := fun x hx =>
    ⟨by rintro rfl; exact np.2 hx, by rintro rfl; exact na hx⟩
  have hl1 : ∀ x ∈ l1, M' x = M x := by
    intro x hx
    rw [hM' x (ne1 x hx).1 (ne1 x hx).2, if_neg]
    intro hh
    exact n3 x hx x (by simp [List.mem_of_head? hh]) rfl
  have hl2 : ∀ x ∈ l2, ∀ r, M x = some r → ∃ r', M' x = some r' ∧ r'.next = r.next ∧
      r'.prev = (if l2.head? = some x then some p else r.prev) ∧ r'.start = r.start ∧
      r'.size = r.size ∧ r'.free = r.free := by
    intro x hx r hr
    rw [hM' x (ne2 x hx).1 (ne2 x hx).2, hr]
    split
    · exact ⟨_, rfl, rfl, rfl, rfl, rfl, rfl⟩
    · exact ⟨_, rfl, rfl, rfl, rfl, rfl, rfl⟩
  have hseg := h.seg
  rw [Seg_append, Seg_cons, Seg_cons] at hseg
  obtain ⟨s1, ⟨pb0, q1, q2, q3⟩, ⟨ab0, u1, u2, u3⟩, s2⟩ := hseg
  rw [hp] at q1; injection q1 with q1; subst q1
  rw [ha] at u1; injection u1 with u1; subst u1
  refine ⟨?_, ?_, ?_, ?_, ?_⟩
  · rw [List.nodup_append]
    refine ⟨n1, ?_, ?_⟩
    · rw [List.nodup_cons]; exact ⟨np.2, n2⟩
    · intro x hx c hc
      simp only [List.mem_cons] at hc
      rcases hc with rfl | hc
      · exact (ne1 x hx).1
      · exact n3 x hx c (by simp [hc])
  · intro i
    by_cases hi : i = p
    · subst hi; simp [hM'p]
    · by_cases hi2 : i = a
      · subst hi2
        rw [hM'a]
        simp only [reduceCtorEq, exists_false, List.mem_append, List.mem_cons, false_iff, not_or]
        exact ⟨fun hm => (ne1 i hm).2 rfl, hi, na⟩
      · have : i ∈ l1 ++ p :: l2 ↔ i ∈ l1 ++ p :: a :: l2 := by simp [hi2]
        rw [this, ← h.dom i, hM' i hi hi2]
        split
        · cases M i <;> simp
        · rfl
  · rw [Seg_append, Seg_cons]
    refine ⟨?_, ⟨pb', hM'p, by rw [e2, q2], by rw [e1, u3]⟩, ?_⟩
    · exact Seg_congr s1 (fun x hx r hr => ⟨r, by rw [hl1 x hx]; exact hr, rfl, rfl⟩)
    · refine Seg_rehead s2 n2 (fun x hx r hr => ?_)
      obtain ⟨r', g1, g2, g3, _⟩ := hl2 x hx r hr
      exact ⟨r', g1, g2, g3⟩
  · have ht := h.tile
    rw [Tile_append] at ht ⊢
    obtain ⟨m, t1, b0, t2, t3, t4, b1, t5, t6, t7, t8⟩ := ht
    rw [hp] at t2; injection t2 with t2; subst t2
    rw [ha] at t5; injection t5 with t5; subst t5
    refine ⟨m, Tile_congr t1 (fun x hx r hr => ⟨r, by rw [hl1 x hx]; exact hr, rfl, rfl⟩),
      pb', hM'p, by rw [e3, t3], by rw [e4]; omega, ?_⟩
    have : m + pb'.size = m + pb.size + ab.size := by rw [e4]; omega
    rw [this]
    refine Tile_congr t8 (fun x hx r hr => ?_)
    obtain ⟨r', g1, _, _, g4, g5, _⟩ := hl2 x hx r hr
    exact ⟨r', g1, g4, g5⟩
  · have hadj := h.adj
    have hfp' : fr M' p = false := by unfold fr; rw [hM'p]; exact e5
    have hf1 : ∀ x ∈ l1, fr M' x = fr M x := fun x hx => by unfold fr; rw [hl1 x hx]
    have hf2 : ∀ x ∈ l2, fr M' x = fr M x := by
      intro x hx
      obtain ⟨r, hr⟩ := (h.dom x).mpr (by simp [hx])
      obtain ⟨r', g1, _, _, _, _, g6⟩ := hl2 x hx r hr
      unfold fr; rw [hr, g1]; exact g6
    have ee : p :: a :: l2 = [p, a] ++ l2 := rfl
    rw [NoAdj_append, ee, NoAdj_append] at hadj
    have ee : p :: l2 = [p] ++ l2 := rfl
    rw [NoAdj_append, ee, NoAdj_append]
    refine ⟨NoAdj_mono hadj.1 (fun x hx hq => by rw [hf1 x hx]; exact hq),
      ⟨trivial, NoAdj_mono hadj.2.1.2.1 (fun x hx hq => by rw [hf2 x hx]; exact hq), ?_⟩, ?_⟩
    · intro x c hx _
      left
      simp only [List.getLast?_singleton, Option.some.injEq] at hx
      rw [← hx]; exact hfp'
    · intro x c _ hc
      right
      simp only [List.head?_cons, List.cons_append, List.nil_append, Option.some.injEq] at hc
      rw [← hc]; exact hfp'

end Rpp.RA
