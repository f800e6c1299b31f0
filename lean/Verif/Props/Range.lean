import Verif.Proof.RangeTotals

/-!
# Properties of `rpp::Range_Allocator`

`B` and `bias` are the template parameters `Buckets` and `Bias`, `cap` the size of the heap. A history of
the allocator is a `RA.Run`: the ranges `g` in use carry what their handles showed when they were handed
out. Sizes are 64-bit numbers, `size + align` of every request is at most `2 ^ 64` and there are fewer than 256
buckets: the last two are what is missing from the theorems named `_partial`. `C30_ranges_false` shows that requests
for which the sum overflows break the allocator, `C30_full_hangs` that with more buckets a request never ends when
nothing is free.
-/

namespace Rpp.Props
open Rpp Rpp.Spec Rpp.RA

variable {B bias cap : Nat} {s : RA} {g : List Grant}

/-- **C30, partial** (no overflow, see above)**.** The ranges in use are inside the heap and pairwise disjoint, each as long as requested, and
their handles still show the offset and length they showed at first. -/
theorem C30_ranges_partial (hB : 0 < B ∧ B < 256) (h0 : 0 < cap) (hcap : cap < 2 ^ 64) (h : Run B bias cap s g) :
    (∀ r ∈ g, r.len = r.size ∧ 0 < r.len ∧ r.off + r.len ≤ cap ∧
      ∃ blk, s.mem r.handle = some blk ∧ blk.offset = r.off ∧ blk.length = r.len) ∧
    (∀ q r, q ∈ g → r ∈ g → q ≠ r → ∀ x, ¬ (q.Has x ∧ r.Has x)) ∧ (g.map Grant.handle).Nodup := by
  obtain ⟨⟨L, hi⟩, hl⟩ := h.inv hB hcap h0
  refine ⟨fun r hr => ?_, fun q r hq hr hne x hx => ?_, hl.nd⟩
  · obtain ⟨o1, o2, o3, o4, o5⟩ := hl.ok r hr
    obtain ⟨blk, q1, q2, q3, q4, q5⟩ := live_mem (hl.lv r hr)
    have hb := hi.bound _ _ q1
    refine ⟨o3, o2, by omega, blk, q1, q3, ?_⟩
    unfold RBlock.length wsub
    omega
  · obtain ⟨⟨x1, x2⟩, x3, x4⟩ := hx
    have oq := hl.ok q hq
    have or := hl.ok r hr
    obtain ⟨bq, q1, q2, q3, q4, q5⟩ := live_mem (hl.lv q hq)
    obtain ⟨br, r1, r2, r3, r4, r5⟩ := live_mem (hl.lv r hr)
    have hh : q.handle ≠ r.handle := fun e => hne (List.inj_on_of_nodup_map hl.nd hq hr e)
    have := Tile_disjoint hi.main.tile _ ((hi.main.dom _).mp ⟨_, Mv_of q1⟩) _
      ((hi.main.dom _).mp ⟨_, Mv_of r1⟩) hh _ _ (Mv_of q1) (Mv_of r1)
    simp only [mainOf] at this
    omega

/-- Every history has a beginning: an allocator for a positive number of positions can be made, one for none stops
the program. -/
theorem C30_start_partial (hB : 0 < B ∧ B < 256) (hcap : cap < 2 ^ 64) :
    (0 < cap → ∃ s, make_heap B bias cap = .ok s) ∧ (cap = 0 → make_heap B bias cap = .error .die) := by
  refine ⟨fun h0 => ?_, fun h0 => by subst h0; rfl⟩
  obtain ⟨s, e, _⟩ := make_heap_ok (B := B) (bias := bias) hB.1 hcap h0
  exact ⟨s, e⟩

/-- In every history every further request and every release of a range in use completes: none of them
stops the program, touches a block that does not exist or loops, and every handle handed out is that of a block. -/
theorem C30_progress_partial (hB : 0 < B ∧ B < 256) (h0 : 0 < cap) (hcap : cap < 2 ^ 64) (h : Run B bias cap s g) :
    (∀ size align, 0 < size → 0 < align → size + align ≤ 2 ^ 64 →
      ∃ s' o, allocate B bias s size align = .ok (s', o) ∧ ∀ b, o = some b → ∃ blk, s'.mem b = some blk) ∧
    (∀ r ∈ g, ∃ s', RA.free B bias s r.handle = .ok s') := by
  obtain ⟨⟨L, hi⟩, hl⟩ := h.inv hB hcap h0
  refine ⟨fun size align h1 h2 h3 => ?_, fun r hr => ?_⟩
  · rcases allocate_ok hB hcap hi h1 h2 h3 with ⟨s2, L2, b2, blk2, pad, e2, hrest⟩ | ⟨e2, _⟩
    · refine ⟨_, _, e2, fun b hb => ?_⟩
      injection hb with hb
      have := hrest.2.2.2.2 b2
      rw [if_pos rfl] at this
      obtain ⟨blk, q1, _⟩ := live_mem this
      exact ⟨blk, hb ▸ q1⟩
    · exact ⟨_, _, e2, fun b hb => by cases hb⟩
  · obtain ⟨s2, L2, e2, _⟩ := free_ok hcap hi (hl.lv r hr)
    exact ⟨s2, e2⟩

/-- **C31, partial** (no overflow, see above)**.** The offset of every range in use is a multiple of the alignment it was requested with, and
less than that alignment is wasted in front of it. -/
theorem C31_aligned_partial (hB : 0 < B ∧ B < 256) (h0 : 0 < cap) (hcap : cap < 2 ^ 64) (h : Run B bias cap s g) :
    ∀ r ∈ g, r.align ∣ r.off ∧ r.pad < r.align := by
  obtain ⟨_, hl⟩ := h.inv hB hcap h0
  exact fun r hr => ⟨(hl.ok r hr).2.2.2.1, (hl.ok r hr).2.2.2.2⟩

/-- **C32, partial** (no overflow, see above)**.** When no range is in use, however that came about, there is one block, free and as large as the
heap, `assert_clear` passes, and a request for the whole heap succeeds with offset 0. -/
theorem C32_clear_partial (hB : 0 < B ∧ B < 256) (h0 : 0 < cap) (hcap : cap < 2 ^ 64) (h : Run B bias cap s []) :
    (∃ a blk, s.mem a = some blk ∧ blk.free = true ∧ blk.start = 0 ∧ blk.size = cap ∧
      ∀ i, i ≠ a → s.mem i = none) ∧
    assert_clear B s.st = .ok () ∧
    ∃ s' b blk, allocate B bias s cap 1 = .ok (s', some b) ∧ s'.mem b = some blk ∧
      blk.offset = 0 ∧ blk.length = cap := by
  obtain ⟨⟨L, hi⟩, hl⟩ := h.inv hB hcap h0
  obtain ⟨a, blk, hL, q1, q2, q3, q4⟩ := clear_block h0 hi hl
  have hg : gapsOf (Mv s) L = [(0, cap)] := by
    rw [hL]; simp [gapsOf, Mv_of q1, mainOf, q2, q3, q4]
  refine ⟨⟨a, blk, q1, q4, q2, q3, fun i hne => ?_⟩, ?_, ?_⟩
  · cases e : s.mem i with
    | none => rfl
    | some b =>
      have := (hi.main.dom i).mp ⟨_, Mv_of e⟩
      rw [hL] at this
      simp at this
      exact absurd this hne
  · obtain ⟨i1, i2, i3, i4, i5, i6, i7, i8, i9⟩ := hi.stat
    obtain ⟨u1, u2⟩ := used_sum hi hl
    obtain ⟨g1, g2⟩ := gapsOf_sum (M := Mv s) (l := L)
    rw [hg] at g1 g2
    simp only [List.map_nil, List.sum_nil, List.length_nil] at u1 u2
    simp only [List.map_cons, List.map_nil, List.sum_cons, List.sum_nil, List.length_cons,
      List.length_nil] at g1 g2
    have hf := hi.st
    have hsum : (List.range B).foldl (fun a i => wadd a (s.st.bucket_sizes i)) 0 = 1 := by
      rw [foldl_one (k := sizeClass B bias cap), if_pos]
      · unfold sizeClass; omega
      · intro i
        rw [bucket_ok hcap hi i, hg]
        by_cases e : i = sizeClass B bias cap
        · simp [e]
        · have : ¬ sizeClass B bias cap = i := fun hh => e hh.symm
          simp [e, this]
    unfold assert_clear
    rw [hsum]
    simp only
    rw [if_pos]
    refine ⟨?_, ?_, Or.inl (by omega), by omega, by omega, by omega, by omega⟩
    · omega
    · omega
  · rcases allocate_ok hB hcap hi (size := cap) (align := 1) h0 (by omega) (by omega) with
      ⟨s2, L2, b2, blk2, pad, e2, i2, m2, f2, fit, lv⟩ | ⟨e2, hno⟩
    · have hlb := lv b2
      rw [if_pos rfl] at hlb
      obtain ⟨blk', p1, p2, p3, p4, p5⟩ := live_mem hlb
      have hb := hi.bound _ _ m2
      obtain ⟨f1, f2, f3⟩ := fit
      refine ⟨s2, b2, blk', e2, p1, by omega, ?_⟩
      unfold RBlock.length wsub
      omega
    · exact absurd (by omega) (hno a blk q1 q4 0 (by simp) (by omega))

/-- **C32.** With ranges in use `assert_clear` stops the program. -/
theorem C32_in_use_dies_partial (hB : 0 < B ∧ B < 256) (h0 : 0 < cap) (hcap : cap < 2 ^ 64) (h : Run B bias cap s g)
    (hg : g ≠ []) : assert_clear B s.st = .error .die := by
  obtain ⟨⟨L, hi⟩, hl⟩ := h.inv hB hcap h0
  have u := (used_sum hi hl).2
  have a := hi.stat.ab
  have : 0 < g.length := List.length_pos_iff.2 hg
  unfold assert_clear
  dsimp only
  rw [if_neg]
  rintro ⟨_, _, _, _, c, _⟩
  omega

/-- **C33, partial** (no overflow, see above)**.** A request fails only if it cannot be met: no aligned place in the heap is free of ranges in use
(with their padding). -/
theorem C33_fails_only_if_full_partial (hB : 0 < B ∧ B < 256) (h0 : 0 < cap) (hcap : cap < 2 ^ 64)
    (h : Run B bias cap s g) {size align : Nat} (h1 : 0 < size) (h2 : 0 < align)
    (h3 : size + align ≤ 2 ^ 64) {s' : RA} (hf : allocate B bias s size align = .ok (s', none)) :
    ¬ ∃ o, align ∣ o ∧ o + size ≤ cap ∧ ∀ x, o ≤ x → x < o + size → ∀ r ∈ g, ¬ r.Occ x := by
  obtain ⟨⟨L, hi⟩, hl⟩ := h.inv hB hcap h0
  rintro ⟨o, o1, o2, o3⟩
  rcases allocate_ok hB hcap hi h1 h2 h3 with ⟨s2, L2, b2, blk2, pad, e2, _⟩ | ⟨e2, hno⟩
  · rw [hf] at e2; injection e2 with e2; injection e2 with _ e2; cases e2
  · obtain ⟨a, blk, q1, q2, q3, q4⟩ := gap_block hi hl h1 o2 o3
    exact hno a blk q1 q2 o o1 q3 q4

/-- In particular it succeeds if there is a gap of `size + align - 1` positions. -/
theorem C33_gap_suffices_partial (hB : 0 < B ∧ B < 256) (h0 : 0 < cap) (hcap : cap < 2 ^ 64)
    (h : Run B bias cap s g) {size align : Nat} (h1 : 0 < size) (h2 : 0 < align)
    (h3 : size + align ≤ 2 ^ 64) {a : Nat} (ha : a + (size + align - 1) ≤ cap)
    (hgap : ∀ x, a ≤ x → x < a + (size + align - 1) → ∀ r ∈ g, ¬ r.Occ x) :
    ∃ s' b, allocate B bias s size align = .ok (s', some b) := by
  obtain ⟨s', b, hr, _⟩ := (C30_progress_partial hB h0 hcap h).1 size align h1 h2 h3
  cases b with
  | some b => exact ⟨s', b, hr⟩
  | none =>
    exfalso
    apply C33_fails_only_if_full_partial hB h0 hcap h h1 h2 h3 hr
    obtain ⟨pad, _, _, p1, p2, _⟩ := padding_ok (start := a) h2 (by omega) (by omega)
    exact ⟨a + pad, p2, by omega, fun x hx1 hx2 => hgap x (by omega) (by omega)⟩

/-- **C34, partial** (no overflow, see above)**.** The statistics are those of the ranges in use and of the gaps between them; the counters of
all allocations and releases differ by what is in use (modulo the size of a word). -/
theorem C34_statistics_partial (hB : 0 < B ∧ B < 256) (h0 : 0 < cap) (hcap : cap < 2 ^ 64) (h : Run B bias cap s g) :
    s.st.allocated_blocks = g.length ∧
    s.st.allocated_size = (g.map (fun r => r.pad + r.len)).sum ∧
    s.st.total_capacity = cap ∧ s.st.allocated_size + s.st.free_size = cap ∧
    s.st.allocated_size ≤ s.st.high_water ∧ s.st.high_water ≤ cap ∧
    s.st.total_allocs = (s.st.total_frees + g.length) % 2 ^ 64 ∧
    s.st.total_alloc_size = (s.st.total_free_size + s.st.allocated_size) % 2 ^ 64 ∧
    ∃ G, IsGaps cap g G ∧ s.st.free_blocks = G.length ∧ s.st.free_size = (G.map Prod.snd).sum ∧
      ∀ j, s.st.bucket_sizes j = (G.filter (fun p => sizeClass B bias p.2 = j)).length := by
  obtain ⟨⟨L, hi⟩, hl⟩ := h.inv hB hcap h0
  obtain ⟨i1, i2, i3, i4, i5, i6, i7, i8, i9⟩ := hi.stat
  obtain ⟨u1, u2⟩ := used_sum hi hl
  obtain ⟨g1, g2⟩ := gapsOf_sum (M := Mv s) (l := L)
  have hsum := Tile_sum hi.main.tile
  refine ⟨by omega, by omega, i5, by omega, i8.1, i8.2, ?_, i7, gapsOf (Mv s) L, gaps_ok hi hl, by omega,
    by omega, bucket_ok hcap hi⟩
  rw [i6, i4, u2]

/-- **C34, partial.** The counters that only grow are those of everything done so far (modulo the size of a word), and
`high_water` is the greatest number of positions that were ever in use at a time. -/
theorem C34_totals_partial (hB : 0 < B ∧ B < 256) (h0 : 0 < cap) (hcap : cap < 2 ^ 64) {t : Tally} (h : Hist B bias cap s g t) :
    s.st.total_allocs = t.allocs % 2 ^ 64 ∧ s.st.total_frees = t.frees % 2 ^ 64 ∧
    s.st.total_alloc_size = t.allocSize % 2 ^ 64 ∧ s.st.total_free_size = t.freeSize % 2 ^ 64 ∧
    s.st.high_water = t.peak := by
  induction h with
  | start h =>
    obtain ⟨_, k2, k3, k4, k5, k6⟩ := kept_st (s' := _) (s := init) (make_heap_totals h)
    exact ⟨k4, k3, k6, k5, k2⟩
  | @alloc s s' g t size align b blk r hh h1 h2 h3 h4 ih =>
    have a := C34_statistics_partial hB h0 hcap hh.run
    have a' := C34_statistics_partial hB h0 hcap (Hist.alloc hh h1 h2 h3 h4).run
    obtain ⟨k1, ⟨n, k2, k3⟩, k4, k5, k6⟩ := allocate_totals h2
    obtain ⟨i1, i2, i3, i4, i5⟩ := ih
    have e : s'.st.allocated_size = r.taken + s.st.allocated_size := by
      rw [a'.2.1, a.2.1]; simp [Grant.taken]
    have e' : s'.st.allocated_size = inUse (r :: g) := a'.2.1
    have b1 := a'.2.2.2.1
    refine ⟨?_, by rw [k5, i2], ?_, by rw [k6, i4], by rw [k1, i5, e']⟩
    · rw [k4, i1]; unfold wadd; dsimp only; omega
    · rw [k3, i3]
      rw [k2] at e
      unfold wadd at e ⊢
      rw [k2] at b1
      unfold wadd at b1
      dsimp only
      omega
  | fail hh h1 h2 ih => rw [allocate_none h2]; exact ih
  | @free s s' g t r hh h1 h2 ih =>
    have a := C34_statistics_partial hB h0 hcap hh.run
    have a' := C34_statistics_partial hB h0 hcap (Hist.free hh h1 h2).run
    obtain ⟨n, k1, k2, k3, k4, k5, k6⟩ := free_totals h2
    obtain ⟨i1, i2, i3, i4, i5⟩ := ih
    have e : s.st.allocated_size = r.taken + s'.st.allocated_size := by
      rw [a'.2.1, a.2.1]
      have := ((List.perm_cons_erase h1).map (fun r : Grant => r.pad + r.len)).sum_nat
      rw [this]; simp [Grant.taken]
    have b1 := a.2.2.2.1
    have b2 := a'.2.2.2.1
    refine ⟨by rw [k5, i1], ?_, by rw [k6, i3], ?_, by rw [k3, i5]⟩
    · rw [k4, i2]; unfold wadd; dsimp only; omega
    · rw [k2, i4]
      unfold wsub at k1
      unfold wadd
      dsimp only
      omega

/-- Every history has a tally. -/
example (h : Run B bias cap s g) : ∃ t, Hist B bias cap s g t := h.hist

/-! ### Concrete histories -/

/-- What a handle shows. -/
private def show' (s : RA) (b : Nat) : Option (Nat × Nat) := (s.mem b).map fun x => (x.offset, x.length)

/-- Three ranges, the middle one released and its place used again, then all released: not one of the
hypotheses of the theorems above is empty. -/
private def demo : Res (List (Option (Nat × Nat)) × Nat × Nat × Nat) := do
  let s ← make_heap 24 8 1024
  let (s, a) ← allocate 24 8 s 10 1
  let (s, b) ← allocate 24 8 s 100 16
  let (s, c) ← allocate 24 8 s 5 64
  let l1 := [a.bind (show' s), b.bind (show' s), c.bind (show' s)]
  let s ← RA.free 24 8 s (b.getD 99)
  let (s, d) ← allocate 24 8 s 50 32
  let l2 := [d.bind (show' s)]
  let (s, e) ← allocate 24 8 s 900 1
  let n := s.st.free_blocks
  let s ← RA.free 24 8 s (a.getD 99)
  let s ← RA.free 24 8 s (c.getD 99)
  let s ← RA.free 24 8 s (d.getD 99)
  assert_clear 24 s.st
  return (l1 ++ l2 ++ [e.bind (show' s)], n, s.st.free_blocks, s.st.high_water)

example : demo =
    .ok ([some (0, 10), some (16, 100), some (128, 5), some (32, 50), none], 2, 1, 133) := by
  decide +kernel

/-- **C30 (and C34) is false without the bound on the request**: with a heap of `2 ^ 32` positions, after a range of 10, a
request of `2 ^ 64 - 6` positions aligned to 16 is granted: `size + padding` wraps to 0. The range then
shows the requested length, far beyond the heap, with nothing taken from the free block. -/
theorem C30_ranges_false :
    (do
      let s ← make_heap 24 8 (2 ^ 32)
      let (s, _) ← allocate 24 8 s 10 1
      let (s, b) ← allocate 24 8 s (2 ^ 64 - 6) 16
      return (b.bind (show' s), s.st.allocated_size) : Res _) = .ok (some (16, 2 ^ 64 - 6), 10) := by
  decide +kernel

/-- **C30 is false with 256 buckets or more**: the index of the bucket is a `u8` and never reaches `Buckets`; when
nothing is free every request goes round for ever, whatever number of steps it is given. With 256 buckets this state is
reached by one request for the whole heap. -/
theorem C30_full_hangs :
    (∀ (B bias : Nat) (s : RA), 256 ≤ B → (∀ j < 256, s.heads j = none) →
      (∀ fuel idx, idx < 256 → firstBucket B s.heads fuel idx = .error .hang) ∧
      ∀ size align, 0 < size → 0 < align → allocate B bias s size align = .error .hang) ∧
    (do
      let s ← make_heap 256 8 4096
      let (s, _) ← allocate 256 8 s 4096 1
      return ((List.range 256).all (fun j => (s.heads j).isNone), (allocate 256 8 s 1 1).isOk) : Res _) =
        .ok (true, false) := by
  refine ⟨fun B bias s hB h => ?_, by decide +kernel⟩
  have key : ∀ fuel idx, idx < 256 → firstBucket B s.heads fuel idx = .error .hang := by
    intro fuel
    induction fuel with
    | zero => intro idx _; rfl
    | succ n ih =>
      intro idx hi
      unfold firstBucket
      rw [if_pos ⟨by omega, by rw [h idx hi]; rfl⟩]
      exact ih _ (Nat.mod_lt _ (by omega))
  refine ⟨key, fun size align h0 ha => ?_⟩
  unfold allocate
  rw [if_neg (by omega)]
  simp only
  rw [key 257 _ (by unfold size_to_idx; exact Nat.mod_lt _ (by omega))]
  rfl

end Rpp.Props
