import Verif.Spec.RangeRun
import Verif.Proof.RangeFree
import Verif.Spec.Range
import Mathlib.Data.List.Nodup

/-! Histories of the range allocator. -/

namespace Rpp.RA
open Rpp Rpp.Spec

/-- The blocks in use are the ranges in use. -/
structure Link (s : RA) (g : List Grant) : Prop where
  lv : ∀ r ∈ g, live (Mv s) r.handle = some (r.off - r.pad, r.off, r.pad + r.len)
  ok : ∀ r ∈ g, r.pad ≤ r.off ∧ 0 < r.len ∧ r.len = r.size ∧ r.align ∣ r.off ∧ r.pad < r.align
  nd : (g.map Grant.handle).Nodup
  all : ∀ i x, live (Mv s) i = some x → ∃ r ∈ g, r.handle = i

variable {B bias cap : Nat} {s : RA} {g : List Grant}

theorem make_heap_ok (hB : 0 < B) (hcap : cap < 2 ^ 64) (h0 : 0 < cap) :
    ∃ s, make_heap B bias cap = .ok s ∧ Inv B bias cap s [0] ∧ ∀ i, live (Mv s) i = none := by
  have st0 : St B bias init (fun _ => none) [] 0 init.st := by
    refine ⟨⟨fun _ => [], ⟨fun _ => trivial, fun _ => rfl, fun _ => List.nodup_nil, ?_, fun _ => rfl⟩⟩, rfl,
      rfl, rfl, rfl, hB⟩
    intro i j
    simp [Fv, init]
  have p0 : PoolInv (fun _ => none) [] 0 := ⟨List.nodup_nil, by simp, by simp⟩
  unfold make_heap
  simp only [bind, Except.bind, if_neg (by omega : ¬ cap = 0), pure, Except.pure]
  obtain ⟨s1, n, pool', fresh', e1, _, st1, p1⟩ := st0.make p0
    (b := ⟨0, cap, 0, none, none, none, none, false⟩) rfl rfl
  have hn : n = 0 := by
    unfold make init at e1
    simp at e1
    exact e1.2.symm
  subst hn
  rw [e1]
  simp only
  obtain ⟨s2, e2, st2⟩ := st1.insert (upd_same _ _ _) rfl
  rw [e2]
  simp only
  rw [upd_upd] at st2
  have stF := st2.stats (fun x => { x with free_blocks := 1, free_size := cap, total_capacity := cap })
    (fun _ _ => rfl)
  have e4 := stF.main
  have e5 := stF.pool
  have e6 := stF.fresh
  simp only at e4 e5 e6
  refine ⟨_, rfl, ⟨stF.free, ?_, ?_, ?_, ?_, hB⟩, ?_⟩
  · rw [e4]
    refine ⟨by simp, ?_, ?_, ?_, ?_⟩
    · intro i
      by_cases e : i = 0
      · subst e; simp [upd_same]
      · rw [upd_ne _ _ e]; simp [e]
    · exact ⟨⟨_, upd_same _ _ _, rfl, rfl⟩, trivial⟩
    · exact ⟨_, upd_same _ _ _, rfl, h0, by simp [Tile]⟩
    · trivial
  · rw [e4, e5, e6]
    refine PoolInv_congr p1 (fun j => ?_)
    by_cases e : j = 0
    · rw [e, upd_same, upd_same]; simp
    · rw [upd_ne _ _ e, upd_ne _ _ e]
  · intro i x hx
    rw [e4] at hx
    unfold live at hx
    by_cases e : i = 0
    · subst e; rw [upd_same] at hx; simp at hx
    · rw [upd_ne _ _ e] at hx; cases hx
  · rw [e4]
    refine StatInv.of_eq (t := _) ?_ stF.st
    refine ⟨?_, ?_, ?_, ?_, rfl, ?_, ?_, ?_, ?_⟩ <;>
      simp [wsum, szf, cnf, upd_same, init]
  · intro i
    rw [e4]
    unfold live
    by_cases e : i = 0
    · subst e; rw [upd_same]; rfl
    · rw [upd_ne _ _ e]

theorem live_mem {i a o z : Nat} (h : live (Mv s) i = some (a, o, z)) :
    ∃ blk, s.mem i = some blk ∧ blk.start = a ∧ blk.offset = o ∧ blk.size = z ∧ blk.free = false := by
  unfold live Mv at h
  cases e : s.mem i with
  | none => rw [e] at h; cases h
  | some blk =>
    rw [e] at h
    simp only [Option.map_some, mainOf] at h
    cases hf : blk.free with
    | true => simp [hf] at h
    | false =>
      simp [hf] at h
      exact ⟨blk, rfl, h.1, h.2.1, h.2.2, hf⟩

theorem mem_live {i : Nat} {blk : RBlock} (h : s.mem i = some blk) (hf : blk.free = false) :
    live (Mv s) i = some (blk.start, blk.offset, blk.size) := by
  unfold live Mv
  rw [h]
  simp [mainOf, hf]

theorem Run.inv (hB : 0 < B ∧ B < 256) (hcap : cap < 2 ^ 64) (h0 : 0 < cap) (h : Run B bias cap s g) :
    (∃ L, Inv B bias cap s L) ∧ Link s g := by
  induction h with
  | start e =>
    obtain ⟨s', e', i1, i2⟩ := make_heap_ok (B := B) (bias := bias) hB.1 hcap h0
    rw [e] at e'; injection e' with e'; subst e'
    exact ⟨⟨_, i1⟩, ⟨by simp, by simp, by simp, fun i x hx => by rw [i2] at hx; cases hx⟩⟩
  | @alloc s s' g size align b blk hr hsz e hb ih =>
    obtain ⟨⟨L, hi⟩, hl⟩ := ih
    have hpos : 0 < size ∧ 0 < align := by
      unfold allocate at e
      by_cases hz : size = 0 ∨ align = 0
      · rw [if_pos hz] at e; cases e
      · omega
    rcases allocate_ok hB hcap hi hpos.1 hpos.2 hsz with
      ⟨s2, L2, b2, blk2, pad, e2, i2, m2, f2, fit, lv⟩ | ⟨e2, _⟩
    · rw [e2] at e
      injection e with e
      injection e with e1 e3
      injection e3 with e3
      subst e1 e3
      have hlb := lv b2
      rw [if_pos rfl] at hlb
      obtain ⟨blk', q1, q2, q3, q4, q5⟩ := live_mem hlb
      rw [hb] at q1; injection q1 with q1; subst q1
      have hbd := i2.bound _ _ hb
      have hpd : wsub blk.offset blk.start = pad := by unfold wsub; omega
      have hln : blk.length = size := by unfold RBlock.length; rw [hpd]; unfold wsub; omega
      have hnl : live (Mv s) b2 = none := by
        unfold live Mv; rw [m2]; simp [mainOf, f2]
      have hnm : ∀ r ∈ g, r.handle ≠ b2 := by
        intro r hr e; have := hl.lv r hr; rw [e, hnl] at this; cases this
      obtain ⟨g1, g2, g3⟩ := fit
      rw [hpd, hln]
      refine ⟨⟨L2, i2⟩, ⟨?_, ?_, ?_, ?_⟩⟩
      · intro r hr
        rcases List.mem_cons.mp hr with rfl | hr
        · simp only
          rw [hlb]
          simp only [Option.some.injEq, Prod.mk.injEq]
          omega
        · rw [lv, if_neg (hnm r hr)]; exact hl.lv r hr
      · intro r hr
        rcases List.mem_cons.mp hr with rfl | hr
        · simp only
          refine ⟨by omega, hpos.1, trivial, ?_, g3⟩
          rw [q3]; exact g1
        · exact hl.ok r hr
      · rw [List.map_cons, List.nodup_cons]
        refine ⟨?_, hl.nd⟩
        simp only [List.mem_map, not_exists, not_and]
        exact fun r hr e => hnm r hr e
      · intro i x hx
        rw [lv] at hx
        by_cases e : i = b2
        · exact ⟨_, List.mem_cons_self, e.symm⟩
        · rw [if_neg e] at hx
          obtain ⟨r, h1, h2⟩ := hl.all i x hx
          exact ⟨r, List.mem_cons_of_mem _ h1, h2⟩
    · rw [e2] at e
      injection e with e
      injection e with _ e
      cases e
  | @fail s s' g size align hr hsz e ih =>
    obtain ⟨⟨L, hi⟩, hl⟩ := ih
    have hpos : 0 < size ∧ 0 < align := by
      unfold allocate at e
      by_cases hz : size = 0 ∨ align = 0
      · rw [if_pos hz] at e; cases e
      · omega
    rcases allocate_ok hB hcap hi hpos.1 hpos.2 hsz with
      ⟨s2, L2, b2, blk2, pad, e2, _⟩ | ⟨e2, _⟩
    · rw [e2] at e
      injection e with e
      injection e with _ e
      cases e
    · rw [e2] at e
      injection e with e
      injection e with e _
      subst e
      exact ⟨⟨L, hi⟩, hl⟩
  | @free s s' g r hr hm e ih =>
    obtain ⟨⟨L, hi⟩, hl⟩ := ih
    obtain ⟨s2, L2, e2, i2, lv⟩ := free_ok hcap hi (hl.lv r hm)
    rw [e] at e2; injection e2 with e2; subst e2
    have hgn : g.Nodup := List.Nodup.of_map _ hl.nd
    have hdist : ∀ q ∈ g, q.handle = r.handle → q = r := by
      intro q hq e
      exact List.inj_on_of_nodup_map hl.nd hq hm e
    refine ⟨⟨L2, i2⟩, ⟨?_, ?_, ?_, ?_⟩⟩
    · intro q hq
      rw [hgn.mem_erase_iff] at hq
      rw [lv, if_neg (fun e => hq.1 (hdist q hq.2 e))]
      exact hl.lv q hq.2
    · intro q hq; exact hl.ok q (List.mem_of_mem_erase hq)
    · exact hl.nd.sublist ((List.erase_sublist).map _)
    · intro i x hx
      rw [lv] at hx
      by_cases e : i = r.handle
      · rw [if_pos e] at hx; cases hx
      · rw [if_neg e] at hx
        obtain ⟨q, h1, h2⟩ := hl.all i x hx
        refine ⟨q, ?_, h2⟩
        rw [hgn.mem_erase_iff]
        exact ⟨by rintro rfl; exact e h2.symm, h1⟩

/-! ### Gaps -/

/-- The free blocks of a list. -/
def gapsOf (M : Nat → Option RBlock) : List Nat → List (Nat × Nat)
  | [] => []
  | a :: l => match M a with
    | some b => if b.free then (b.start, b.size) :: gapsOf M l else gapsOf M l
    | none => gapsOf M l

variable {M : Nat → Option RBlock}

theorem mem_gapsOf {l : List Nat} {p : Nat × Nat} : p ∈ gapsOf M l ↔
    ∃ a ∈ l, ∃ b, M a = some b ∧ b.free = true ∧ p = (b.start, b.size) := by
  induction l with
  | nil => simp [gapsOf]
  | cons a l ih =>
    simp only [gapsOf, List.mem_cons, exists_eq_or_imp]
    cases e : M a with
    | none => simp [ih]
    | some b =>
      cases hf : b.free with
      | true => simp [hf, ih]
      | false => simp [hf, ih]

theorem gapsOf_apart {l : List Nat} : ∀ {s e : Nat}, Tile M s l e → NoAdj (fr M) l →
    (gapsOf M l).Pairwise (fun a b => a.1 + a.2 < b.1) ∧
    ((∃ a, l.head? = some a ∧ fr M a = true) ∨ ∀ p ∈ gapsOf M l, s < p.1) := by
  induction l with
  | nil => intro s e _ _; simp [gapsOf]
  | cons a l ih =>
    rintro s e ⟨b, h1, h2, h3, h4⟩ hadj
    have hadj' : NoAdj (fr M) l := by
      cases l with
      | nil => trivial
      | cons c l => exact hadj.2
    obtain ⟨i1, i2⟩ := ih h4 hadj'
    have hge : ∀ p ∈ gapsOf M l, s + b.size ≤ p.1 := by
      intro p hp
      obtain ⟨c, hc, cb, q1, q2, q3⟩ := mem_gapsOf.mp hp
      have := Tile_bound h4 c hc cb q1
      rw [q3]; simp only; omega
    simp only [gapsOf, h1]
    cases hf : b.free with
    | true =>
      simp only [if_true]
      refine ⟨List.pairwise_cons.mpr ⟨?_, i1⟩, Or.inl ⟨a, rfl, by simp [fr, h1, hf]⟩⟩
      intro p hp
      rcases i2 with ⟨c, hc, hcf⟩ | i2
      · cases l with
        | nil => cases hc
        | cons d l =>
          simp at hc; subst hc
          rcases hadj.1 with hh | hh
          · simp [fr, h1, hf] at hh
          · rw [hh] at hcf; cases hcf
      · have := i2 p hp; simp only; omega
    | false =>
      simp only [Bool.false_eq_true, if_false]
      exact ⟨i1, Or.inr fun p hp => by have := hge p hp; omega⟩

theorem gapsOf_sum {l : List Nat} : ((gapsOf M l).map Prod.snd).sum = wsum (szf true) M l ∧
    (gapsOf M l).length = wsum (cnf true) M l := by
  induction l with
  | nil => simp [gapsOf, wsum]
  | cons a l ih =>
    rw [wsum_cons, wsum_cons]
    simp only [gapsOf]
    cases e : M a with
    | none => simp [szf, cnf, ih]
    | some b => cases hf : b.free <;> simp [szf, cnf, hf, ih] <;> omega

theorem Tile_cover {l : List Nat} : ∀ {s e x : Nat}, Tile M s l e → s ≤ x → x < e →
    ∃ l1 a l2 b, l = l1 ++ a :: l2 ∧ M a = some b ∧ b.start ≤ x ∧ x < b.start + b.size := by
  induction l with
  | nil => intro s e x h h1 h2; have : s = e := h; omega
  | cons a l ih =>
    rintro s e x ⟨b, h1, h2, h3, h4⟩ hx1 hx2
    by_cases hx : x < s + b.size
    · exact ⟨[], a, l, b, rfl, h1, by omega, by omega⟩
    · obtain ⟨l1, c, l2, cb, q1, q2, q3, q4⟩ := ih h4 (by omega) hx2
      exact ⟨a :: l1, c, l2, cb, by rw [q1]; rfl, q2, q3, q4⟩

theorem gaps_ok {L : List Nat} (hi : Inv B bias cap s L) (hl : Link s g) :
    IsGaps cap g (gapsOf (Mv s) L) := by
  refine ⟨(gapsOf_apart hi.main.tile hi.main.adj).1, ?_, ?_⟩
  · intro p hp
    obtain ⟨a, ha, b, h1, h2, rfl⟩ := mem_gapsOf.mp hp
    have := Tile_bound hi.main.tile a ha b h1
    exact ⟨this.2.2, this.2.1⟩
  · intro x hx
    constructor
    · rintro ⟨p, hp, hx1, hx2⟩ r hr ⟨ho1, ho2⟩
      obtain ⟨a, ha, b, h1, h2, rfl⟩ := mem_gapsOf.mp hp
      have hlv := hl.lv r hr
      have hok := hl.ok r hr
      obtain ⟨blk, q1, q2, q3, q4, q5⟩ := live_mem hlv
      have hrL := (hi.main.dom r.handle).mp ⟨_, Mv_of q1⟩
      have hne : r.handle ≠ a := by
        rintro rfl
        rw [Mv_of q1] at h1
        injection h1 with h1
        subst h1
        simp only [mainOf] at h2
        rw [q5] at h2; cases h2
      have := Tile_disjoint hi.main.tile _ hrL a ha hne _ _ (Mv_of q1) h1
      simp only [mainOf] at this
      simp only at hx1 hx2
      omega
    · intro hno
      obtain ⟨l1, a, l2, b, h1, h2, h3, h4⟩ := Tile_cover hi.main.tile (Nat.zero_le x) hx
      refine ⟨(b.start, b.size), mem_gapsOf.mpr ⟨a, by rw [h1]; simp, b, h2, ?_, rfl⟩, h3, h4⟩
      cases hf : b.free with
      | true => rfl
      | false =>
        exfalso
        have hlv : live (Mv s) a = some (b.start, b.offset, b.size) := by
          unfold live; rw [h2]; simp [hf]
        obtain ⟨r, hr, he⟩ := hl.all a _ hlv
        have := hl.lv r hr
        rw [he, hlv] at this
        simp only [Option.some.injEq, Prod.mk.injEq] at this
        have hok := hl.ok r hr
        exact hno r hr ⟨by omega, by omega⟩

/-- An interval free of ranges lies in one free block. -/
theorem gap_block {L : List Nat} (hi : Inv B bias cap s L) (hl : Link s g) {o size : Nat} (h0 : 0 < size)
    (hcap : o + size ≤ cap) (hno : ∀ x, o ≤ x → x < o + size → ∀ r ∈ g, ¬ r.Occ x) :
    ∃ a blk, s.mem a = some blk ∧ blk.free = true ∧ blk.start ≤ o ∧ o + size ≤ blk.start + blk.size := by
  have hlive : ∀ a ∈ L, ∀ b, Mv s a = some b → b.free = false → ∀ x, b.start ≤ x → x < b.start + b.size →
      ¬ (o ≤ x ∧ x < o + size) := by
    intro a ha b hb hf x hx1 hx2 ⟨hx3, hx4⟩
    have hlv : live (Mv s) a = some (b.start, b.offset, b.size) := by
      unfold live; rw [hb]; simp [hf]
    obtain ⟨r, hr, he⟩ := hl.all a _ hlv
    have := hl.lv r hr
    rw [he, hlv] at this
    simp only [Option.some.injEq, Prod.mk.injEq] at this
    have hok := hl.ok r hr
    exact hno x hx3 hx4 r hr ⟨by omega, by omega⟩
  obtain ⟨l1, a, l2, b, h1, h2, h3, h4⟩ := Tile_cover hi.main.tile (Nat.zero_le o) (by omega)
  have haL : a ∈ L := by rw [h1]; simp
  have hf : b.free = true := by
    cases hf : b.free with
    | true => rfl
    | false => exact absurd ⟨Nat.le_refl o, by omega⟩ (hlive a haL b h2 hf o h3 h4)
  obtain ⟨blk, q1, q2⟩ := hi.st.get h2
  subst q2
  refine ⟨a, blk, q1, hf, h3, ?_⟩
  rcases Nat.lt_or_ge (blk.start + blk.size) (o + size) with hlt | hge
  · exfalso
    have ht := hi.main.tile
    rw [h1, Tile_append] at ht
    obtain ⟨m, _, ⟨b', t1, t2, t3, t4⟩⟩ := ht
    rw [h2] at t1; injection t1 with t1; subst t1
    cases l2 with
    | nil =>
      have : m + blk.size = cap := t4
      have : blk.start = m := t2
      omega
    | cons c l2 =>
      obtain ⟨cb, u1, u2, u3, _⟩ := t4
      have hst : blk.start = m := t2
      have u2' : cb.start = m + blk.size := u2
      have hcf : cb.free = false := by
        rcases adj_fr hi.main h1 with hh | hh
        · simp [fr, h2, hf] at hh
        · simpa [fr, u1] using hh
      refine hlive c (by rw [h1]; simp) cb u1 hcf cb.start (Nat.le_refl _) (by omega) ⟨?_, by omega⟩
      have h4' : o < blk.start + blk.size := h4
      omega
  · exact hge

/-! ### Sums over the ranges -/

theorem filter_sum {w : Option RBlock → Nat} {p : Nat → Bool} {l : List Nat}
    (h : ∀ a ∈ l, p a = false → w (M a) = 0) :
    wsum w M l = ((l.filter p).map (fun a => w (M a))).sum := by
  induction l with
  | nil => rfl
  | cons a l ih =>
    rw [wsum_cons, ih (fun x hx => h x (List.mem_cons_of_mem _ hx))]
    cases hp : p a with
    | true => simp [List.filter_cons, hp]
    | false => simp [List.filter_cons, hp, h a List.mem_cons_self hp]

theorem used_perm {L : List Nat} (hi : Inv B bias cap s L) (hl : Link s g) :
    (L.filter (fun a => (live (Mv s) a).isSome)).Perm (g.map Grant.handle) := by
  rw [List.perm_ext_iff_of_nodup (hi.main.nodup.filter _) hl.nd]
  intro a
  rw [List.mem_filter, List.mem_map]
  constructor
  · rintro ⟨_, h⟩
    obtain ⟨x, hx⟩ := Option.isSome_iff_exists.mp h
    exact hl.all a x hx
  · rintro ⟨r, hr, rfl⟩
    have hlv := hl.lv r hr
    refine ⟨?_, by rw [hlv]; rfl⟩
    obtain ⟨blk, q1, _⟩ := live_mem hlv
    exact (hi.main.dom _).mp ⟨_, Mv_of q1⟩

theorem used_sum {L : List Nat} (hi : Inv B bias cap s L) (hl : Link s g) :
    wsum (szf false) (Mv s) L = (g.map (fun r => r.pad + r.len)).sum ∧
    wsum (cnf false) (Mv s) L = g.length := by
  have hz : ∀ a, (live (Mv s) a).isSome = false → szf false (Mv s a) = 0 ∧ cnf false (Mv s a) = 0 := by
    intro a ha
    unfold live at ha
    cases e : Mv s a with
    | none => exact ⟨rfl, rfl⟩
    | some b =>
      rw [e] at ha
      cases hf : b.free with
      | true => simp [szf, cnf, hf]
      | false => simp [hf] at ha
  have hv : ∀ r ∈ g, szf false (Mv s r.handle) = r.pad + r.len ∧ cnf false (Mv s r.handle) = 1 := by
    intro r hr
    obtain ⟨blk, q1, q2, q3, q4, q5⟩ := live_mem (hl.lv r hr)
    rw [Mv_of q1]
    simp [szf, cnf, mainOf, q5, q4]
  have hp := used_perm hi hl
  constructor
  · rw [filter_sum (p := fun a => (live (Mv s) a).isSome) (fun a _ ha => (hz a ha).1),
      (hp.map _).sum_nat, List.map_map]
    exact congrArg List.sum (List.map_congr_left (fun r hr => (hv r hr).1))
  · rw [filter_sum (p := fun a => (live (Mv s) a).isSome) (fun a _ ha => (hz a ha).2),
      (hp.map _).sum_nat, List.map_map]
    have : List.map ((fun a => cnf false (Mv s a)) ∘ Grant.handle) g = List.map (fun _ => 1) g :=
      List.map_congr_left (fun r hr => (hv r hr).2)
    rw [this]
    simp

theorem sizeClass_eq {n : Nat} (h0 : 0 < n) (hn : n < 2 ^ 64) : size_to_idx B bias n = sizeClass B bias n := by
  obtain ⟨_, h1, h2, _⟩ := Math.log2_spec (w := 64) h0 hn
  have : Nat.log2 n = Math.log2 64 n := (Nat.log2_eq_iff (by omega)).mpr ⟨h1, h2⟩
  unfold size_to_idx sizeClass
  rw [this]
  simp only
  split <;> omega

theorem gapsOf_eq (l : List Nat) : gapsOf M l =
    (l.filter (fr M)).map (fun a => ((M a).elim 0 RBlock.start, (M a).elim 0 RBlock.size)) := by
  induction l with
  | nil => rfl
  | cons a l ih =>
    simp only [gapsOf, List.filter_cons]
    cases e : M a with
    | none => simp [fr, e, ih]
    | some b => cases hf : b.free <;> simp [fr, e, hf, ih]

theorem bucket_ok {L : List Nat} (hcap : cap < 2 ^ 64) (hi : Inv B bias cap s L) (j : Nat) :
    s.st.bucket_sizes j =
      ((gapsOf (Mv s) L).filter (fun p => sizeClass B bias p.2 = j)).length := by
  obtain ⟨F, hF⟩ := hi.free
  rw [hF.cnt j, gapsOf_eq, List.filter_map, List.length_map, List.filter_filter]
  have hp : (F j).Perm (L.filter (fun a => (decide (sizeClass B bias ((Mv s a).elim 0 RBlock.size) = j)) &&
      fr (Mv s) a)) := by
    rw [List.perm_ext_iff_of_nodup (hF.nodup j) (hi.main.nodup.filter _)]
    intro a
    rw [hF.mem, List.mem_filter]
    constructor
    · rintro ⟨r, h1, h2⟩
      obtain ⟨blk, q1, q2, q3⟩ := Fv_some h1
      refine ⟨(hi.main.dom a).mp ⟨_, Mv_of q1⟩, ?_⟩
      have hb := hi.bound a blk q1
      rw [q3] at h2
      simp only at h2
      rw [sizeClass_eq (by omega) (by omega)] at h2
      simp [Mv_of q1, mainOf, fr, q2, h2]
    · rintro ⟨h1, h2⟩
      obtain ⟨mb, hm⟩ := (hi.main.dom a).mpr h1
      obtain ⟨blk, q1, q2⟩ := hi.st.get hm
      subst q2
      have hb := hi.bound a blk q1
      simp [fr, hm, mainOf] at h2
      refine ⟨_, Fv_of q1 h2.2, ?_⟩
      simp only
      rw [sizeClass_eq (by omega) (by omega)]
      exact h2.1
  have hlen : (F j).length < 2 ^ 64 := by
    rw [hp.length_eq]
    have h1 := List.length_filter_le (fun a => (decide (sizeClass B bias ((Mv s a).elim 0 RBlock.size) = j)) &&
      fr (Mv s) a) L
    have h2 := Tile_le hi.main.tile
    omega
  rw [Nat.mod_eq_of_lt hlen, hp.length_eq]
  rfl

theorem foldl_one {f : Nat → Nat} {k : Nat} (hf : ∀ i, f i = if i = k then 1 else 0) : ∀ n,
    (List.range n).foldl (fun a i => wadd a (f i)) 0 = if k < n then 1 else 0 := by
  intro n
  induction n with
  | zero => rfl
  | succ n ih =>
    rw [List.range_succ, List.foldl_append, ih]
    simp only [List.foldl_cons, List.foldl_nil, hf n]
    unfold wadd
    by_cases h1 : n = k
    · subst h1; simp
    · by_cases h2 : k < n
      · simp [h1, h2, Nat.lt_succ_of_lt h2]
      · rw [if_neg h1, if_neg h2, if_neg (by omega)]

/-- Nothing in use: one free block. -/
theorem clear_block {L : List Nat} (h0 : 0 < cap) (hi : Inv B bias cap s L) (hl : Link s []) :
    ∃ a blk, L = [a] ∧ s.mem a = some blk ∧ blk.start = 0 ∧ blk.size = cap ∧ blk.free = true := by
  obtain ⟨a, blk, q1, q2, q3, q4⟩ := gap_block hi hl (o := 0) h0 (by omega) (by simp)
  have hb := hi.bound a blk q1
  have hM := Mv_of q1
  have haL := (hi.main.dom a).mp ⟨_, hM⟩
  refine ⟨a, blk, ?_, q1, by omega, by omega, q2⟩
  have hall : ∀ c ∈ L, c = a := by
    intro c hc
    obtain ⟨cb, hcb⟩ := (hi.main.dom c).mpr hc
    have h1 := Tile_bound hi.main.tile c hc cb hcb
    rcases Nat.decEq c a with hne | he
    · have := Tile_disjoint hi.main.tile c hc a haL hne cb _ hcb hM
      simp only [mainOf] at this
      omega
    · exact he
  have hn := hi.main.nodup
  cases L with
  | nil => cases haL
  | cons x l =>
    have hx := hall x List.mem_cons_self
    subst hx
    cases l with
    | nil => rfl
    | cons y l =>
      have := hall y (by simp)
      subst this
      simp at hn

end Rpp.RA
