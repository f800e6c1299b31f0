import Verif.Proof.RangeOps

/-! The invariant of the range allocator and its preservation. -/

namespace Rpp.RA
open Rpp

/-- The statistics are the sums over the blocks. -/
structure StatInv (t : RStats) (M : Nat → Option RBlock) (L : List Nat) (cap : Nat) : Prop where
  fs : t.free_size = wsum (szf true) M L
  as : t.allocated_size = wsum (szf false) M L
  fb : t.free_blocks = wsum (cnf true) M L
  ab : t.allocated_blocks = wsum (cnf false) M L
  cp : t.total_capacity = cap
  ta : t.total_allocs = (t.total_frees + t.allocated_blocks) % 2 ^ 64
  ts : t.total_alloc_size = (t.total_free_size + t.allocated_size) % 2 ^ 64
  hw : t.allocated_size ≤ t.high_water ∧ t.high_water ≤ cap
  tf : t.total_frees < 2 ^ 64 ∧ t.total_free_size < 2 ^ 64

structure Inv (B bias cap : Nat) (s : RA) (L : List Nat) : Prop where
  free : ∃ F, FreeInv (Fv B bias s) s.heads s.st.bucket_sizes F
  main : MainInv (Mv s) L cap
  pool : PoolInv (Mv s) s.pool s.fresh
  used : ∀ i x, live (Mv s) i = some x → x.1 ≤ x.2.1 ∧ x.2.1 < x.1 + x.2.2
  stat : StatInv s.st (Mv s) L cap
  pos : 0 < B

variable {B bias cap : Nat} {s : RA} {L : List Nat}

theorem Inv.st (h : Inv B bias cap s L) : St B bias s (Mv s) s.pool s.fresh s.st :=
  ⟨h.free, rfl, rfl, rfl, rfl, h.pos⟩

theorem StatInv.of_eq {t t' : RStats} {M : Nat → Option RBlock} (h : StatInv t M L cap)
    (e : t' = { t with bucket_sizes := t'.bucket_sizes }) : StatInv t' M L cap := by
  rw [e]
  exact ⟨h.fs, h.as, h.fb, h.ab, h.cp, h.ta, h.ts, h.hw, h.tf⟩

theorem Inv.bound (h : Inv B bias cap s L) : ∀ i b, s.mem i = some b →
    b.start + b.size ≤ cap ∧ 0 < b.size := by
  intro i b hb
  have hM : Mv s i = some (mainOf b) := by unfold Mv; rw [hb]; rfl
  have hi := (h.main.dom i).mp ⟨_, hM⟩
  have := Tile_bound h.main.tile i hi _ hM
  exact ⟨this.2.1, this.2.2⟩

theorem wsum_le_of_mem {w : Option RBlock → Nat} {M : Nat → Option RBlock} {l : List Nat} {i : Nat}
    (hi : i ∈ l) : w (M i) ≤ wsum w M l := by
  obtain ⟨l1, l2, rfl⟩ := List.append_of_mem hi
  rw [wsum_append, wsum_cons]; omega

theorem take_ok (hcap : cap < 2 ^ 64) (h : Inv B bias cap s L) {b : Nat} {mb : RBlock}
    (hb : Mv s b = some mb) (hfree : mb.free = true) {size pad : Nat} (h0 : 0 < size)
    (hfit : size + pad ≤ mb.size) :
    ∃ s' L', take B bias s b size pad = .ok s' ∧ Inv B bias cap s' L' ∧
      ∀ i, live (Mv s') i = if i = b then some (mb.start, mb.start + pad, size + pad)
        else live (Mv s) i := by
  have hbL : b ∈ L := (h.main.dom b).mp ⟨mb, hb⟩
  have hbd := Tile_bound h.main.tile b hbL mb hb
  have hsum := Tile_sum h.main.tile
  have hcn := cn_sum (l := L) (fun a ha => (h.main.dom a).mpr ha)
  have hlen := Tile_le h.main.tile
  have hfsb : mb.size ≤ wsum (szf true) (Mv s) L := by
    have := wsum_le_of_mem (w := szf true) (M := Mv s) hbL
    rw [hb] at this; simpa [szf, hfree] using this
  have hfcb : 1 ≤ wsum (cnf true) (Mv s) L := by
    have := wsum_le_of_mem (w := cnf true) (M := Mv s) hbL
    rw [hb] at this; simpa [cnf, hfree] using this
  obtain ⟨i1, i2, i3, i4, i5, i6, i7, i8, i9⟩ := h.stat
  have hw : wadd size pad = size + pad := by unfold wadd; omega
  have ho : wadd mb.start pad = mb.start + pad := by unfold wadd; omega
  unfold take
  obtain ⟨s1, e1, st1⟩ := h.st.remove hb hfree
  rw [e1]
  simp only [bind, Except.bind]
  obtain ⟨s2, e2, st2⟩ := st1.wr (upd_same _ _ _) (fun x => { x with offset := wadd x.start pad })
    (fun _ => rfl) (fun _ => ⟨rfl, rfl, rfl⟩) (Or.inl rfl)
  rw [e2]
  simp only
  rw [upd_upd] at st2
  obtain ⟨nf, pf, e3⟩ := st2.rd (upd_same _ _ _)
  rw [e3]
  simp only
  rw [hw]
  simp only [ho] at st2
  by_cases hgt : mb.size > size + pad
  · -- split
    rw [if_pos hgt]
    have hmk : ∀ x : RA, True := fun _ => trivial
    have hpool1 : PoolInv (upd (Mv s) b (some { mb with free := false, offset := mb.start + pad }))
        s.pool s.fresh := by
      refine ⟨h.pool.nodup, ?_, fun i => ?_⟩
      · intro i hi
        have := h.pool.dis i hi
        rw [upd_ne]
        · exact this
        · rintro rfl; rw [hb] at this; cases this
      · rw [h.pool.all i]
        by_cases e : i = b
        · subst e; simp [upd_same, hb]
        · rw [upd_ne _ _ e]
    obtain ⟨s3, n, pool', fresh', e4, hn, st3, hpool3⟩ := st2.make hpool1
      (b := ⟨0, wsub (wsub mb.size size) pad, wadd (wadd mb.start size) pad, mb.next, some b, none,
        none, false⟩) rfl rfl
    rw [e4]
    simp only
    have hnb : n ≠ b := by rintro rfl; rw [upd_same] at hn; cases hn
    have hnM : Mv s n = none := by rw [upd_ne _ _ hnb] at hn; exact hn
    have hnL : n ∉ L := by
      intro hm
      obtain ⟨x, hx⟩ := (h.main.dom n).mpr hm
      rw [hnM] at hx; cases hx
    obtain ⟨l1, l2, hl⟩ := List.append_of_mem hbL
    have hseg := h.main.seg
    rw [hl] at hseg
    obtain ⟨r, hr, hpv, hnx⟩ := Seg_get hseg
    rw [hb] at hr; injection hr with hr; subst hr
    simp only [Option.or_none] at hnx hpv
    have hnd := h.main.nodup
    rw [hl, List.nodup_append] at hnd
    obtain ⟨n1, n2, n3⟩ := hnd
    rw [List.nodup_cons] at n2
    obtain ⟨s4, e5, st4⟩ := st3.wr (b := b) (mb := { mb with free := false, offset := mb.start + pad })
      (by rw [upd_ne _ _ hnb.symm, upd_same]) (fun x => { x with size := size + pad })
      (fun _ => rfl) (fun _ => ⟨rfl, rfl, rfl⟩) (Or.inl rfl)
    rw [e5]
    simp only
    obtain ⟨s5, e6, st5⟩ := st4.wrOpt (i := mb.next) (by
        intro q hq
        rw [hnx] at hq
        have hq2 := List.mem_of_head? hq
        have hqb : q ≠ b := by rintro rfl; exact n2.1 hq2
        have hqn : q ≠ n := by rintro rfl; exact hnL (by rw [hl]; simp [hq2])
        obtain ⟨x, hx⟩ := (h.main.dom q).mpr (by rw [hl]; simp [hq2])
        exact ⟨x, by rw [upd_ne _ _ hqb, upd_ne _ _ hqn, upd_ne _ _ hqb]; exact hx⟩)
      (fun x => { x with prev := some n }) (fun _ => rfl) (fun _ => ⟨rfl, rfl, rfl⟩) (fun _ => rfl)
    rw [e6]
    simp only
    have hnb2 : ¬ mb.next = some b := by
      rw [hnx]; intro hh; exact n2.1 (List.mem_of_head? hh)
    have hnn2 : ¬ mb.next = some n := by
      rw [hnx]; intro hh; exact hnL (by rw [hl]; simp [List.mem_of_head? hh])
    obtain ⟨s6, e7, st6⟩ := st5.wr (b := b)
      (mb := { mb with free := false, offset := mb.start + pad, size := size + pad })
      (by rw [if_neg hnb2, upd_same]) (fun x => { x with next := some n })
      (fun _ => rfl) (fun _ => ⟨rfl, rfl, rfl⟩) (Or.inl rfl)
    rw [e7]
    simp only
    obtain ⟨s7, e8, st7⟩ := st6.insert (b := n) (by
      rw [upd_ne _ _ hnb, if_neg hnn2, upd_ne _ _ hnb, upd_same]) rfl
    rw [e8]
    simp only
    generalize hM7 : (upd (upd (fun j => if mb.next = some j then Option.map _ _ else _) b _) n _) = M7 at st7
    -- the final memory
    have hM7b : M7 b = some ⟨mb.start + pad, size + pad, mb.start, some n, mb.prev, mb.nextF,
        mb.prevF, false⟩ := by
      rw [← hM7, upd_ne _ _ hnb.symm, upd_same]
    have hw1 : wsub (wsub mb.size size) pad = mb.size - (size + pad) := by unfold wsub; omega
    have hw2 : wadd (wadd mb.start size) pad = mb.start + (size + pad) := by unfold wadd; omega
    have hM7n : M7 n = some ⟨0, mb.size - (size + pad), mb.start + (size + pad), mb.next, some b, none,
        none, true⟩ := by
      rw [← hM7, upd_same, hw1, hw2]
    have hM7o : ∀ j, j ≠ b → j ≠ n → M7 j = if l2.head? = some j then
        (Mv s j).map (fun x => { x with prev := some n }) else Mv s j := by
      intro j hj1 hj2
      rw [← hM7, upd_ne _ _ hj2, upd_ne _ _ hj1, hnx]
      simp only [upd_ne _ _ hj1, upd_ne _ _ hj2]
    have hlive : ∀ i, i ≠ b → i ≠ n → live M7 i = live (Mv s) i := by
      intro i hib hin
      unfold live
      rw [hM7o i hib hin]
      by_cases hh : l2.head? = some i
      · rw [if_pos hh]; cases Mv s i <;> rfl
      · rw [if_neg hh]
    have hmain0 := h.main
    rw [hl] at hmain0 hnL
    have hmain : MainInv M7 (l1 ++ b :: n :: l2) cap :=
      MainInv_split hmain0 hb hfree (by omega : 0 < size + pad) hgt hnL hM7b rfl rfl rfl rfl rfl hM7n rfl rfl
        rfl rfl hM7o
    have hw7 : ∀ (w : Option RBlock → Nat), (∀ o p, w (Option.map (fun x => { x with prev := p }) o) = w o) →
        wsum w M7 (l1 ++ b :: n :: l2) + w (some mb) = wsum w (Mv s) L + w (M7 b) + w (M7 n) := by
      intro w hwp
      rw [hl, wsum_append, wsum_append, wsum_cons, wsum_cons, wsum_cons, hb]
      have a1 : wsum w M7 l1 = wsum w (Mv s) l1 := wsum_congr (fun a ha => by
        rw [hM7o a (by rintro rfl; exact n3 a ha a (by simp) rfl)
          (by rintro rfl; exact hnL (by simp [ha])), if_neg]
        intro hh; exact n3 a ha a (by simp [List.mem_of_head? hh]) rfl)
      have a2 : wsum w M7 l2 = wsum w (Mv s) l2 := wsum_congr (fun a ha => by
        rw [hM7o a (by rintro rfl; exact n2.1 ha) (by rintro rfl; exact hnL (by simp [ha]))]
        split
        · rw [hwp]
        · rfl)
      rw [a1, a2]; omega
    have w1 := hw7 (szf true) (by intro o p; cases o <;> rfl)
    have w2 := hw7 (szf false) (by intro o p; cases o <;> rfl)
    have w3 := hw7 (cnf true) (by intro o p; cases o <;> rfl)
    have w4 := hw7 (cnf false) (by intro o p; cases o <;> rfl)
    rw [hM7b, hM7n] at w1 w2 w3 w4
    simp only [szf, cnf, hfree, reduceCtorEq, if_true, if_false, Bool.false_eq_true, Bool.true_eq_false] at w1 w2 w3 w4
    have stF := (st7.stats (fun x => { x with free_blocks := wadd x.free_blocks 1 })
      (fun _ _ => rfl)).stats (fun x => { x with
        free_size := wsub x.free_size (size + pad)
        allocated_size := wadd x.allocated_size (size + pad)
        high_water := max x.high_water (wadd x.allocated_size (size + pad))
        allocated_blocks := wadd x.allocated_blocks 1
        free_blocks := wsub x.free_blocks 1
        total_allocs := wadd x.total_allocs 1
        total_alloc_size := wadd x.total_alloc_size (size + pad) }) (fun _ _ => rfl)
    refine ⟨_, l1 ++ b :: n :: l2, rfl, ⟨?_, ?_, ?_, ?_, ?_, h.pos⟩, ?_⟩
    · exact stF.free
    · have := stF.main
      rw [this]; exact hmain
    · have e1 := stF.main; have e2 := stF.pool; have e3 := stF.fresh
      rw [e1, e2, e3]
      refine ⟨hpool3.nodup, ?_, fun i => ?_⟩
      · intro i hi
        have hz := hpool3.dis i hi
        have hin : i ≠ n := by rintro rfl; rw [upd_same] at hz; cases hz
        have hib : i ≠ b := by
          rintro rfl; rw [upd_ne _ _ hin, upd_same] at hz; cases hz
        rw [upd_ne _ _ hin, upd_ne _ _ hib] at hz
        rw [hM7o i hib hin, hz]; split <;> rfl
      · rw [hpool3.all i]
        by_cases hin : i = n
        · subst hin; simp [upd_same, hM7n]
        · by_cases hib : i = b
          · subst hib; simp [upd_ne _ _ hin, upd_same, hM7b]
          · rw [upd_ne _ _ hin, upd_ne _ _ hib, hM7o i hib hin]
            split
            · cases Mv s i <;> simp
            · rfl
    · intro i x hx
      have e1 := stF.main
      rw [e1] at hx
      by_cases hib : i = b
      · subst hib
        simp only [live, hM7b, Bool.false_eq_true, if_false, Option.some.injEq] at hx
        subst hx
        simp only; omega
      · by_cases hin : i = n
        · subst hin; simp only [live, hM7n, if_true] at hx; cases hx
        · apply h.used i x
          rw [← hx]
          exact (hlive i hib hin).symm
    · have e1 := stF.main
      rw [e1]
      refine StatInv.of_eq (t := _) ?_ stF.st
      refine ⟨?_, ?_, ?_, ?_, i5, ?_, ?_, ?_, i9⟩ <;> simp only [wadd, wsub]
      · omega
      · omega
      · omega
      · omega
      · omega
      · omega
      · omega
    · intro i
      have e1 := stF.main
      rw [e1]
      by_cases hib : i = b
      · rw [if_pos hib, hib]
        simp [live, hM7b]
      · rw [if_neg hib]
        by_cases hin : i = n
        · subst hin; simp [live, hM7n, hnM]
        · exact hlive i hib hin
  · -- the whole block
    rw [if_neg hgt]
    have hsz : mb.size = size + pad := by omega
    simp only [pure, Except.pure]
    generalize hM2 : upd (Mv s) b (some { mb with free := false, offset := mb.start + pad }) = M2 at st2
    have hM2b : M2 b = some { mb with free := false, offset := mb.start + pad } := by
      rw [← hM2, upd_same]
    have hM2o : ∀ j, j ≠ b → M2 j = Mv s j := fun j hj => by rw [← hM2, upd_ne _ _ hj]
    have hmain : MainInv M2 L cap := by
      rw [← hM2]; exact MainInv_set h.main hb rfl rfl rfl rfl (Or.inl rfl)
    have w1 := wsum_upd (w := szf true) (M := Mv s) h.main.nodup hbL (M2 b)
    have w2 := wsum_upd (w := szf false) (M := Mv s) h.main.nodup hbL (M2 b)
    have w3 := wsum_upd (w := cnf true) (M := Mv s) h.main.nodup hbL (M2 b)
    have w4 := wsum_upd (w := cnf false) (M := Mv s) h.main.nodup hbL (M2 b)
    rw [hM2b, hb, hM2] at w1 w2 w3 w4
    simp only [szf, cnf, hfree, reduceCtorEq, if_true, if_false, Bool.false_eq_true, Bool.true_eq_false] at w1 w2 w3 w4
    have stF := st2.stats (fun x => { x with
        free_size := wsub x.free_size (size + pad)
        allocated_size := wadd x.allocated_size (size + pad)
        high_water := max x.high_water (wadd x.allocated_size (size + pad))
        allocated_blocks := wadd x.allocated_blocks 1
        free_blocks := wsub x.free_blocks 1
        total_allocs := wadd x.total_allocs 1
        total_alloc_size := wadd x.total_alloc_size (size + pad) }) (fun _ _ => rfl)
    refine ⟨_, L, rfl, ⟨?_, ?_, ?_, ?_, ?_, h.pos⟩, ?_⟩
    · exact stF.free
    · have := stF.main
      rw [this]; exact hmain
    · have e1 := stF.main; have e2 := stF.pool; have e3 := stF.fresh
      rw [e1, e2, e3]
      refine ⟨h.pool.nodup, ?_, fun i => ?_⟩
      · intro i hi
        have hz := h.pool.dis i hi
        rw [hM2o i]
        · exact hz
        · rintro rfl; rw [hb] at hz; cases hz
      · rw [h.pool.all i]
        by_cases hib : i = b
        · subst hib; simp [hb, hM2b]
        · rw [hM2o i hib]
    · intro i x hx
      have e1 := stF.main
      rw [e1] at hx
      by_cases hib : i = b
      · subst hib
        simp only [live, hM2b, Bool.false_eq_true, if_false, Option.some.injEq] at hx
        subst hx
        simp only; omega
      · apply h.used i x
        rw [← hx]
        unfold live
        rw [hM2o i hib]
    · have e1 := stF.main
      rw [e1]
      refine StatInv.of_eq (t := _) ?_ stF.st
      refine ⟨?_, ?_, ?_, ?_, i5, ?_, ?_, ?_, i9⟩ <;> simp only [wadd, wsub]
      · omega
      · omega
      · omega
      · omega
      · omega
      · omega
      · omega
    · intro i
      have e1 := stF.main
      rw [e1]
      by_cases hib : i = b
      · rw [if_pos hib, hib]
        simp [live, hM2b, hsz]
      · rw [if_neg hib]
        unfold live
        rw [hM2o i hib]

theorem Mv_of {i : Nat} {b : RBlock} (h : s.mem i = some b) : Mv s i = some (mainOf b) := by
  unfold Mv; rw [h]; rfl

theorem allocate_ok (hB : 0 < B ∧ B < 256) (hcap : cap < 2 ^ 64) (h : Inv B bias cap s L) {size align : Nat}
    (h0 : 0 < size) (ha : 0 < align) (hsz : size + align ≤ 2 ^ 64) :
    (∃ s' L' b blk pad, allocate B bias s size align = .ok (s', some b) ∧ Inv B bias cap s' L' ∧
      s.mem b = some blk ∧ blk.free = true ∧ Fits blk size align pad ∧
      ∀ i, live (Mv s') i = if i = b then some (blk.start, blk.start + pad, size + pad)
        else live (Mv s) i) ∨
    (allocate B bias s size align = .ok (s, none) ∧
      ∀ b blk, s.mem b = some blk → blk.free = true → NoFit blk size align) := by
  obtain ⟨F, hF⟩ := h.free
  have hmemF : ∀ b blk, s.mem b = some blk → blk.free = true →
      b ∈ F (size_to_idx B bias blk.size) := fun b blk h1 h2 =>
    (hF.mem b _).mpr ⟨_, Fv_of h1 h2, rfl⟩
  have hsmall : ∀ b blk, s.mem b = some blk → size_to_idx B bias blk.size < size_to_idx B bias size →
      NoFit blk size align := by
    intro b blk h1 h2 o h3 h4 h5
    have hb := h.bound b blk h1
    have : size_to_idx B bias size ≤ size_to_idx B bias blk.size :=
      size_to_idx_mono h0 (by omega) (by omega)
    omega
  have hi0 := size_to_idx_lt (bias := bias) hB.1 size
  unfold allocate
  rw [if_neg (by omega)]
  generalize hidx0 : size_to_idx B bias size = idx0 at *
  obtain ⟨idx, hfb, f1, f2, f3, f4⟩ := firstBucket_spec (heads := s.heads) hB.2 257 idx0 (by omega) (by omega)
  simp only [hfb, bind, Except.bind]
  have hempty : ∀ j, idx0 ≤ j → j < idx → F j = [] := by
    intro j h1 h2
    have := f3 j h1 h2
    rw [hF.head] at this
    simpa using this
  by_cases hB2 : idx = B
  · rw [if_pos hB2]
    right
    refine ⟨rfl, fun b blk h1 h2 => ?_⟩
    have hm := hmemF b blk h1 h2
    by_cases hlt : size_to_idx B bias blk.size < idx0
    · exact hsmall b blk h1 hlt
    · rw [hempty _ (by omega) (by have := size_to_idx_lt (bias := bias) hB.1 blk.size; omega)] at hm
      cases hm
  · rw [if_neg hB2, bkt_ok (by omega)]
    have hmlive : ∀ x j, x ∈ F j → ∃ blk, s.mem x = some blk ∧ blk.free = true ∧
        size_to_idx B bias blk.size = j := by
      intro x j hx
      obtain ⟨r, hr, hj⟩ := (hF.mem x j).mp hx
      obtain ⟨blk, q1, q2, q3⟩ := Fv_some hr
      exact ⟨blk, q1, q2, by rw [← hj, q3]⟩
    have hmem2 : ∀ x, x ∈ F idx ++ rest F (B - 1 - idx) idx → ∃ blk, s.mem x = some blk ∧ blk.free = true := by
      intro x hx
      rcases List.mem_append.mp hx with hx | hx
      · obtain ⟨blk, q1, q2, _⟩ := hmlive x idx hx; exact ⟨blk, q1, q2⟩
      · obtain ⟨j, _, _, hx⟩ := (mem_rest _ _).mp hx
        obtain ⟨blk, q1, q2, _⟩ := hmlive x j hx; exact ⟨blk, q1, q2⟩
    have hlen : (F idx ++ rest F (B - 1 - idx) idx).length < s.fresh + 1 := by
      have := nodup_bound (n := s.fresh) (nodup_rest hF (B - 1 - idx) idx) (fun x hx => by
        obtain ⟨blk, q1, _⟩ := hmem2 x hx
        exact (h.pool.all x).mpr (Or.inr ⟨_, Mv_of q1⟩))
      omega
    rw [hF.head idx]
    by_cases hne : F idx = []
    · -- cannot happen, the bucket is not empty
      exfalso
      have := f4 (by omega)
      rw [hF.head, hne] at this
      exact this rfl
    · rcases search_spec hB.2 hF hsz ha (fun i b hb => by have := h.bound i b hb; omega) (s.fresh + 1) (F idx) idx
        (B - 1 - idx) ⟨[], rfl⟩ (by omega) (fun e => absurd e hne) hlen with
        ⟨b, pad, blk, e1, e2, e3, e4⟩ | ⟨e1, e2⟩
      · left
        obtain ⟨blk', g1, g2⟩ := hmem2 b e2
        rw [e3] at g1; injection g1 with g1; subst g1
        rw [e1]
        simp only [bind, Except.bind]
        obtain ⟨s', L', t1, t2, t3⟩ := take_ok hcap h (Mv_of e3) (mb := mainOf blk) g2 h0 (pad := pad) e4.2.1
        rw [t1]
        exact ⟨s', L', b, blk, pad, rfl, t2, e3, g2, e4, t3⟩
      · right
        rw [e1]
        refine ⟨rfl, fun b blk h1 h2 => ?_⟩
        have hm := hmemF b blk h1 h2
        by_cases hlt : size_to_idx B bias blk.size < idx0
        · exact hsmall b blk h1 hlt
        · by_cases hlt2 : size_to_idx B bias blk.size < idx
          · rw [hempty _ (by omega) hlt2] at hm; cases hm
          · refine e2 b ?_ blk h1
            have hltB := size_to_idx_lt (bias := bias) hB.1 blk.size
            by_cases heq : size_to_idx B bias blk.size = idx
            · rw [heq] at hm; exact List.mem_append_left _ hm
            · exact List.mem_append_right _ ((mem_rest _ _).mpr ⟨_, by omega, by omega, hm⟩)

end Rpp.RA
