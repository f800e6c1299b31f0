import Verif.Proof.RangeInv

/-! `free` keeps the invariant of the range allocator. -/

namespace Rpp.RA
open Rpp

variable {B bias cap : Nat} {s : RA} {L : List Nat} {M : Nat → Option RBlock} {pool : List Nat}
  {fresh : Nat} {t : RStats}

/-- The memory after linking `p` past its neighbour `a`. -/
def linkM (M : Nat → Option RBlock) (p : Nat) (pb ab : RBlock) : Nat → Option RBlock :=
  fun j => if ab.next = some j then
      (upd M p (some { pb with size := pb.size + ab.size, next := ab.next }) j).map
        (fun x => { x with prev := some p })
    else upd M p (some { pb with size := pb.size + ab.size, next := ab.next }) j

theorem split_prev (h : MainInv M L cap) {b p : Nat} {mb : RBlock} (hb : M b = some mb)
    (hp : mb.prev = some p) : ∃ l1 l2, L = l1 ++ p :: b :: l2 := by
  obtain ⟨l1, l2, hl⟩ := List.append_of_mem ((h.dom b).mp ⟨mb, hb⟩)
  have hseg := h.seg
  rw [hl] at hseg
  obtain ⟨r, hr, hpv, _⟩ := Seg_get hseg
  rw [hb] at hr; injection hr with hr; subst hr
  simp only [Option.or_none] at hpv
  rw [hp] at hpv
  obtain ⟨l, rfl⟩ := List.getLast?_eq_some_iff.mp hpv.symm
  exact ⟨l, l2, by rw [hl]; simp⟩

theorem split_next (h : MainInv M L cap) {b n : Nat} {mb : RBlock} (hb : M b = some mb)
    (hn : mb.next = some n) : ∃ l1 l2, L = l1 ++ b :: n :: l2 := by
  obtain ⟨l1, l2, hl⟩ := List.append_of_mem ((h.dom b).mp ⟨mb, hb⟩)
  have hseg := h.seg
  rw [hl] at hseg
  obtain ⟨r, hr, _, hnx⟩ := Seg_get hseg
  rw [hb] at hr; injection hr with hr; subst hr
  simp only [Option.or_none] at hnx
  rw [hn] at hnx
  cases l2 with
  | nil => cases hnx
  | cons c l2 => simp at hnx; subst hnx; exact ⟨l1, l2, hl⟩

theorem adj_fr (h : MainInv M L cap) {l1 l2 : List Nat} {a c : Nat} (hl : L = l1 ++ a :: c :: l2) :
    fr M a = false ∨ fr M c = false := by
  have := h.adj
  rw [hl, NoAdj_append] at this
  exact this.2.1.1

theorem adj_prev (h : MainInv M L cap) {b q : Nat} {mb : RBlock} (hb : M b = some mb)
    (hf : mb.free = true) (hq : mb.prev = some q) : fr M q = false := by
  obtain ⟨l1, l2, hl⟩ := split_prev h hb hq
  rcases adj_fr h hl with h1 | h1
  · exact h1
  · simp [fr, hb, hf] at h1

theorem adj_next (h : MainInv M L cap) {b q : Nat} {mb : RBlock} (hb : M b = some mb)
    (hf : mb.free = true) (hq : mb.next = some q) : fr M q = false := by
  obtain ⟨l1, l2, hl⟩ := split_next h hb hq
  rcases adj_fr h hl with h1 | h1
  · simp [fr, hb, hf] at h1
  · exact h1

/-- Making a block free whose neighbours are not. -/
theorem MainInv_setfree (h : MainInv M L cap) {b : Nat} {mb : RBlock} (hb : M b = some mb)
    (h1 : ∀ q, mb.prev = some q → fr M q = false) (h2 : ∀ q, mb.next = some q → fr M q = false) :
    MainInv (upd M b (some { mb with free := true })) L cap := by
  refine MainInv_set h hb rfl rfl rfl rfl (Or.inr (Or.inr fun l1 l2 hl => ?_))
  have hseg := h.seg
  rw [hl] at hseg
  obtain ⟨r, hr, hpv, hnx⟩ := Seg_get hseg
  rw [hb] at hr; injection hr with hr; subst hr
  simp only [Option.or_none] at hpv hnx
  exact ⟨fun a ha => h1 a (by rw [hpv, ha]), fun a ha => h2 a (by rw [hnx, ha])⟩

/-- What linking past a neighbour and dropping it does. -/
theorem merge_pure {l1 l2 : List Nat} {p a : Nat} {pb ab : RBlock}
    (h : MainInv M (l1 ++ p :: a :: l2) cap) (hp : M p = some pb) (ha : M a = some ab)
    (hpf : pb.free = false) (haf : ab.free = false) :
    MainInv (upd (linkM M p pb ab) a none) (l1 ++ p :: l2) cap ∧
    linkM M p pb ab p = some { pb with size := pb.size + ab.size, next := ab.next } ∧
    (∃ x, linkM M p pb ab a = some x ∧ x.free = false) ∧
    p ≠ a ∧ (∀ q, ab.next = some q → ∃ b, M q = some b) ∧
    (∀ j, (∃ x, linkM M p pb ab j = some x) ↔ ∃ x, M j = some x) ∧
    (∀ j, j ≠ p → live (upd (linkM M p pb ab) a none) j = if j = a then none else live M j) ∧
    (∀ j, fr M j = false → fr (upd (linkM M p pb ab) a none) j = false) ∧
    (∀ f, wsum (szf f) (upd (linkM M p pb ab) a none) (l1 ++ p :: l2) =
      wsum (szf f) M (l1 ++ p :: a :: l2)) ∧
    wsum (cnf true) (upd (linkM M p pb ab) a none) (l1 ++ p :: l2) =
      wsum (cnf true) M (l1 ++ p :: a :: l2) ∧
    wsum (cnf false) (upd (linkM M p pb ab) a none) (l1 ++ p :: l2) + 1 =
      wsum (cnf false) M (l1 ++ p :: a :: l2) := by
  have hnd := h.nodup
  rw [List.nodup_append] at hnd
  obtain ⟨n1, n2, n3⟩ := hnd
  rw [List.nodup_cons, List.nodup_cons] at n2
  obtain ⟨np, na, n2⟩ := n2
  simp only [List.mem_cons, not_or] at np
  have hseg : Seg RBlock.next RBlock.prev M none ((l1 ++ [p]) ++ a :: l2) none := by
    have := h.seg; simpa using this
  obtain ⟨r, hr, hpv, hnx⟩ := Seg_get hseg
  rw [ha] at hr; injection hr with hr; subst hr
  simp only [Option.or_none] at hnx
  have hnp : ¬ ab.next = some p := by
    rw [hnx]; intro hh; exact np.2 (List.mem_of_head? hh)
  have hna : ¬ ab.next = some a := by
    rw [hnx]; intro hh; exact na (List.mem_of_head? hh)
  have hMp : linkM M p pb ab p = some { pb with size := pb.size + ab.size, next := ab.next } := by
    unfold linkM; rw [if_neg hnp, upd_same]
  have hMa : linkM M p pb ab a = some ab := by
    unfold linkM; rw [if_neg hna, upd_ne _ _ (Ne.symm np.1), ha]
  have hMo : ∀ j, j ≠ p → j ≠ a → upd (linkM M p pb ab) a none j = if l2.head? = some j then
      (M j).map (fun x => { x with prev := some p }) else M j := by
    intro j h1 h2
    rw [upd_ne _ _ h2]
    unfold linkM
    rw [upd_ne _ _ h1, hnx]
  have hM'p : upd (linkM M p pb ab) a none p =
      some { pb with size := pb.size + ab.size, next := ab.next } := by
    rw [upd_ne _ _ np.1, hMp]
  have hw : ∀ (w : Option RBlock → Nat), (∀ o p, w (Option.map (fun x => { x with prev := p }) o) = w o) →
      wsum w (upd (linkM M p pb ab) a none) (l1 ++ p :: l2) + w (some pb) + w (some ab) =
      wsum w M (l1 ++ p :: a :: l2) +
        w (some { pb with size := pb.size + ab.size, next := ab.next }) := by
    intro w hwp
    rw [wsum_append, wsum_append, wsum_cons, wsum_cons, wsum_cons, hp, ha, hM'p]
    have a1 : wsum w (upd (linkM M p pb ab) a none) l1 = wsum w M l1 := wsum_congr (fun x hx => by
      rw [hMo x (by rintro rfl; exact n3 x hx x (by simp) rfl)
        (by rintro rfl; exact n3 x hx x (by simp) rfl), if_neg]
      intro hh; exact n3 x hx x (by simp [List.mem_of_head? hh]) rfl)
    have a2 : wsum w (upd (linkM M p pb ab) a none) l2 = wsum w M l2 := wsum_congr (fun x hx => by
      rw [hMo x (by rintro rfl; exact np.2 hx) (by rintro rfl; exact na hx)]
      split
      · rw [hwp]
      · rfl)
    rw [a1, a2]; omega
  have hs : ∀ f, wsum (szf f) (upd (linkM M p pb ab) a none) (l1 ++ p :: l2) =
      wsum (szf f) M (l1 ++ p :: a :: l2) := by
    intro f
    have := hw (szf f) (by intro o p; cases o <;> rfl)
    simp only [szf, hpf, haf] at this
    split at this <;> omega
  refine ⟨MainInv_merge h hp ha hM'p rfl rfl rfl rfl hpf (upd_same _ _ _) hMo, hMp, ⟨ab, hMa, haf⟩, np.1,
    ?_, ?_, ?_, ?_, hs, ?_, ?_⟩
  · intro q hq
    rw [hnx] at hq
    exact (h.dom q).mpr (by simp [List.mem_of_head? hq])
  · intro j
    by_cases e1 : j = p
    · rw [e1]; simp [hMp, hp]
    · unfold linkM
      rw [upd_ne _ _ e1]
      split <;> cases M j <;> simp
  · intro j hj
    by_cases e : j = a
    · rw [if_pos e, e]; simp [live, upd_same]
    · rw [if_neg e]
      unfold live
      rw [hMo j hj e]
      by_cases hh : l2.head? = some j
      · rw [if_pos hh]; cases M j <;> rfl
      · rw [if_neg hh]
  · intro j hj
    by_cases e : j = a
    · simp [fr, e, upd_same]
    · by_cases e2 : j = p
      · rw [e2]; unfold fr; rw [hM'p]; simp [hpf]
      · unfold fr at hj ⊢
        rw [hMo j e2 e]
        by_cases hh : l2.head? = some j
        · rw [if_pos hh]; cases hM : M j with
          | none => rfl
          | some x => rw [hM] at hj; exact hj
        · rw [if_neg hh]; exact hj
  · have := hw (cnf true) (by intro o p; cases o <;> rfl)
    simp only [cnf, hpf, haf] at this
    simpa using this
  · have := hw (cnf false) (by intro o p; cases o <;> rfl)
    simp only [cnf, hpf, haf] at this
    simp at this
    omega

/-- The writes that link `p` past `a`. -/
theorem merge_links (hst : St B bias s M pool fresh t) {p : Nat} {pb ab : RBlock} (hp : M p = some pb)
    (hpf : pb.free = false) (hsz : pb.size + ab.size < 2 ^ 64)
    (hnx : ∀ q, ab.next = some q → ∃ b, M q = some b) :
    ∃ s1 s2 s3, s.wr p (fun x => { x with size := wadd x.size ab.size }) = .ok s1 ∧
      s1.wr p (fun x => { x with next := ab.next }) = .ok s2 ∧
      s2.wrOpt ab.next (fun x => { x with prev := some p }) = .ok s3 ∧
      St B bias s3 (linkM M p pb ab) pool fresh t := by
  obtain ⟨s1, e1, st1⟩ := hst.wr hp (fun x => { x with size := wadd x.size ab.size })
    (fun _ => rfl) (fun _ => ⟨rfl, rfl, rfl⟩) (Or.inl hpf)
  obtain ⟨s2, e2, st2⟩ := st1.wr (upd_same _ _ _) (fun x => { x with next := ab.next })
    (fun _ => rfl) (fun _ => ⟨rfl, rfl, rfl⟩) (Or.inl hpf)
  rw [upd_upd] at st2
  obtain ⟨s3, e3, st3⟩ := st2.wrOpt (i := ab.next) (by
      intro q hq
      by_cases e : q = p
      · rw [e, upd_same]; exact ⟨_, rfl⟩
      · rw [upd_ne _ _ e]; exact hnx q hq)
    (fun x => { x with prev := some p }) (fun _ => rfl) (fun _ => ⟨rfl, rfl, rfl⟩) (fun _ => rfl)
  refine ⟨s1, s2, s3, e1, e2, e3, ?_⟩
  have hw : wadd pb.size ab.size = pb.size + ab.size := by unfold wadd; omega
  rw [hw] at st3
  exact st3

theorem PoolInv_congr {M' : Nat → Option RBlock} (h : PoolInv M pool fresh)
    (hd : ∀ j, (∃ x, M' j = some x) ↔ ∃ x, M j = some x) : PoolInv M' pool fresh := by
  refine ⟨h.nodup, fun i hi => ?_, fun i => by rw [h.all i, hd i]⟩
  cases e : M' i with
  | none => rfl
  | some x =>
    obtain ⟨y, hy⟩ := (hd i).mp ⟨x, e⟩
    rw [h.dis i hi] at hy; cases hy

/-- The first half of `free`, lines 149-161. -/
def mergePrev (B bias : Nat) (s : RA) (allocation : Nat) (blk : RBlock) : Res (RA × Nat) :=
  match blk.prev with
  | some p => do
    let pb ← s.rd p
    (if pb.free then do
      let s ← s.remove_free_block B bias p
      let s ← s.wr p (fun x => { x with size := wadd x.size blk.size })
      let s ← s.wr p (fun x => { x with next := blk.next })
      let s ← s.wrOpt blk.next (fun x => { x with prev := some p })
      let s ← s.destroy allocation
      pure ({ s with st := { s.st with free_blocks := wsub s.st.free_blocks 1 } }, p)
    else pure (s, allocation))
  | none => pure (s, allocation)

/-- The second half of `free`, lines 164-175. -/
def mergeNext (B bias : Nat) (s : RA) (block : Nat) (next : Option Nat) : Res RA :=
  match next with
  | some n => do
    let nb ← s.rd n
    (if nb.free then do
      let s ← s.remove_free_block B bias n
      let nb ← s.rd n
      let s ← s.wr block (fun x => { x with size := wadd x.size nb.size })
      let s ← s.wr block (fun x => { x with next := nb.next })
      let s ← s.wrOpt nb.next (fun x => { x with prev := some block })
      let s := { s with st := { s.st with free_blocks := wsub s.st.free_blocks 1 } }
      s.destroy n
    else pure s)
  | none => pure s

theorem free_eq (s : RA) (allocation : Nat) : free B bias s allocation = (do
    let blk ← s.rd allocation
    let (s, block) ← mergePrev B bias s allocation blk
    let s ← mergeNext B bias s block blk.next
    let s ← s.insert_free_block B bias block
    return { s with st := { s.st with
      free_size := wadd s.st.free_size blk.size
      allocated_size := wsub s.st.allocated_size blk.size
      allocated_blocks := wsub s.st.allocated_blocks 1
      free_blocks := wadd s.st.free_blocks 1
      total_frees := wadd s.st.total_frees 1
      total_free_size := wadd s.st.total_free_size blk.size } }) := by
  rfl

/-- A state in the middle of `free`: `b` is the block being released. -/
structure Mid (B bias cap : Nat) (s : RA) (M : Nat → Option RBlock) (L : List Nat) (pool : List Nat)
    (fresh : Nat) (t : RStats) (b : Nat) (mb : RBlock) : Prop where
  st : St B bias s M pool fresh t
  main : MainInv M L cap
  pool : PoolInv M pool fresh
  blk : M b = some mb
  nf : mb.free = false
  fb : t.free_blocks = wsum (cnf true) M L

theorem Mid.mem {b : Nat} {mb : RBlock} (h : Mid B bias cap s M L pool fresh t b mb) : b ∈ L :=
  (h.main.dom b).mp ⟨mb, h.blk⟩

theorem mergePrev_ok (hcap : cap < 2 ^ 64) {b : Nat} {mb blk : RBlock}
    (h : Mid B bias cap s M L pool fresh t b mb)
    (hk : blk.prev = mb.prev ∧ blk.next = mb.next ∧ blk.size = mb.size) :
    ∃ s' b' M' L' pool' t' mb' d, mergePrev B bias s b blk = .ok (s', b') ∧
      Mid B bias cap s' M' L' pool' fresh t' b' mb' ∧ mb'.next = mb.next ∧
      t' = { t with free_blocks := t'.free_blocks } ∧
      (∀ q, mb'.prev = some q → fr M' q = false) ∧
      (b' = b ∨ live M b' = none) ∧
      (∀ i, i ≠ b' → live M' i = if i = b then none else live M i) ∧
      mb'.size = mb.size + d ∧
      wsum (szf true) M' L' + d = wsum (szf true) M L ∧
      wsum (szf false) M' L' = wsum (szf false) M L + d ∧
      wsum (cnf false) M' L' = wsum (cnf false) M L := by
  obtain ⟨k1, k2, k3⟩ := hk
  have hstay : (∀ q, mb.prev = some q → fr M q = false) →
      ∃ s' b' M' L' pool' t' mb' d, (.ok (s, b) : Res (RA × Nat)) = .ok (s', b') ∧
      Mid B bias cap s' M' L' pool' fresh t' b' mb' ∧ mb'.next = mb.next ∧
      t' = { t with free_blocks := t'.free_blocks } ∧
      (∀ q, mb'.prev = some q → fr M' q = false) ∧
      (b' = b ∨ live M b' = none) ∧
      (∀ i, i ≠ b' → live M' i = if i = b then none else live M i) ∧
      mb'.size = mb.size + d ∧
      wsum (szf true) M' L' + d = wsum (szf true) M L ∧
      wsum (szf false) M' L' = wsum (szf false) M L + d ∧
      wsum (cnf false) M' L' = wsum (cnf false) M L := fun hq =>
    ⟨s, b, M, L, pool, t, mb, 0, rfl, h, rfl, rfl, hq, Or.inl rfl, fun i hi => by rw [if_neg hi], rfl,
      rfl, rfl, rfl⟩
  unfold mergePrev
  rw [k1, k2, k3]
  cases hpv : mb.prev with
  | none => exact hstay (by rw [hpv]; simp)
  | some p =>
    obtain ⟨l1, l2, hl⟩ := split_prev h.main h.blk hpv
    obtain ⟨pb, hpb⟩ := (h.main.dom p).mpr (by rw [hl]; simp)
    obtain ⟨nf, pf, e1⟩ := h.st.rd hpb
    simp only [e1, bind, Except.bind]
    by_cases hf : pb.free = true
    · rw [if_pos hf]
      obtain ⟨s1, e2, st1⟩ := h.st.remove hpb hf
      rw [e2]
      simp only
      have hmain1 : MainInv (upd M p (some { pb with free := false })) L cap :=
        MainInv_set h.main hpb rfl rfl rfl rfl (Or.inl rfl)
      have hpb1 : p ≠ b := by
        have := h.main.nodup
        rw [hl, List.nodup_append, List.nodup_cons] at this
        rintro rfl; exact this.2.1.1 (by simp)
      have hb1 : upd M p (some { pb with free := false }) b = some mb := by
        rw [upd_ne _ _ hpb1.symm]; exact h.blk
      have hmain1' := hmain1
      rw [hl] at hmain1'
      obtain ⟨m1, m2, ⟨x, m3, m3'⟩, m4, m5, m6, m7, m8, m9, m10, m11⟩ :=
        merge_pure hmain1' (upd_same _ _ _) hb1 rfl h.nf
      have hbp := Tile_bound h.main.tile p (by rw [hl]; simp) pb hpb
      have hbb := Tile_bound h.main.tile b h.mem mb h.blk
      have hdj := Tile_disjoint h.main.tile p (by rw [hl]; simp) b h.mem hpb1 pb mb hpb h.blk
      obtain ⟨s2, s3, s4, e3, e4, e5, st4⟩ := merge_links st1 (upd_same _ _ _) (ab := mb) rfl
        (by simp only; omega) m5
      rw [e3]
      simp only
      rw [e4]
      simp only
      rw [e5]
      simp only
      have hpool1 : PoolInv (linkM (upd M p (some { pb with free := false })) p { pb with free := false } mb)
          pool fresh := by
        refine PoolInv_congr h.pool (fun j => ?_)
        rw [m6]
        by_cases e : j = p
        · rw [e, upd_same]; simp [hpb]
        · rw [upd_ne _ _ e]
      obtain ⟨s5, e6, st5, hp5⟩ := st4.destroy hpool1 m3 m3'
      rw [e6]
      simp only [pure, Except.pure]
      have stF := st5.stats (fun x => { x with free_blocks := wsub x.free_blocks 1 }) (fun _ _ => rfl)
      have v1 := wsum_upd (w := szf true) (M := M) h.main.nodup (i := p) (by rw [hl]; simp)
        (some { pb with free := false })
      have v2 := wsum_upd (w := szf false) (M := M) h.main.nodup (i := p) (by rw [hl]; simp)
        (some { pb with free := false })
      have v3 := wsum_upd (w := cnf true) (M := M) h.main.nodup (i := p) (by rw [hl]; simp)
        (some { pb with free := false })
      have v4 := wsum_upd (w := cnf false) (M := M) h.main.nodup (i := p) (by rw [hl]; simp)
        (some { pb with free := false })
      rw [hpb] at v1 v2 v3 v4
      simp only [szf, cnf, hf, reduceCtorEq, if_true, if_false, Bool.false_eq_true, Bool.true_eq_false] at v1 v2 v3 v4
      have m9t := m9 true
      have m9f := m9 false
      rw [← hl] at m9t m9f m10 m11
      have hlen : wsum (cnf true) M L + wsum (cnf false) M L = L.length :=
        cn_sum (fun a ha => (h.main.dom a).mpr ha)
      have hlen2 := Tile_le h.main.tile
      have hfb := h.fb
      refine ⟨_, p, _, l1 ++ p :: l2, _, _,
        { pb with free := false, size := pb.size + mb.size, next := mb.next }, pb.size, rfl,
        ⟨stF, m1, hp5, by rw [upd_ne _ _ m4]; exact m2, rfl, ?_⟩, rfl, rfl, ?_,
        Or.inr (by simp [live, hpb, hf]), ?_, ?_, ?_, ?_, ?_⟩
      · simp only [wsub]; omega
      · intro q hq
        have := adj_prev h.main hpb hf hq
        apply m8
        unfold fr at this ⊢
        by_cases e : q = p
        · rw [e, upd_same]; rfl
        · rw [upd_ne _ _ e]; exact this
      · intro i hi
        rw [m7 i hi]
        by_cases e : i = b
        · rw [if_pos e, if_pos e]
        · rw [if_neg e, if_neg e]
          unfold live
          rw [upd_ne _ _ hi]
      · simp only; omega
      · omega
      · omega
      · omega
    · rw [if_neg hf]
      refine hstay ?_
      intro q hq
      rw [hpv] at hq; injection hq with hq; subst hq
      simp [fr, hpb]
      simpa using hf

theorem mergeNext_ok (hcap : cap < 2 ^ 64) {b : Nat} {mb : RBlock}
    (h : Mid B bias cap s M L pool fresh t b mb) :
    ∃ s' M' L' pool' t' mb' d, mergeNext B bias s b mb.next = .ok s' ∧
      Mid B bias cap s' M' L' pool' fresh t' b mb' ∧ mb'.prev = mb.prev ∧
      t' = { t with free_blocks := t'.free_blocks } ∧
      (∀ q, mb'.next = some q → fr M' q = false) ∧
      (∀ q, fr M q = false → fr M' q = false) ∧
      (∀ i, i ≠ b → live M' i = live M i) ∧
      mb'.size = mb.size + d ∧
      wsum (szf true) M' L' + d = wsum (szf true) M L ∧
      wsum (szf false) M' L' = wsum (szf false) M L + d ∧
      wsum (cnf false) M' L' = wsum (cnf false) M L := by
  have hstay : (∀ q, mb.next = some q → fr M q = false) →
      ∃ s' M' L' pool' t' mb' d, (.ok s : Res RA) = .ok s' ∧
      Mid B bias cap s' M' L' pool' fresh t' b mb' ∧ mb'.prev = mb.prev ∧
      t' = { t with free_blocks := t'.free_blocks } ∧
      (∀ q, mb'.next = some q → fr M' q = false) ∧
      (∀ q, fr M q = false → fr M' q = false) ∧
      (∀ i, i ≠ b → live M' i = live M i) ∧
      mb'.size = mb.size + d ∧
      wsum (szf true) M' L' + d = wsum (szf true) M L ∧
      wsum (szf false) M' L' = wsum (szf false) M L + d ∧
      wsum (cnf false) M' L' = wsum (cnf false) M L := fun hq =>
    ⟨s, M, L, pool, t, mb, 0, rfl, h, rfl, rfl, hq, fun _ hh => hh, fun _ _ => rfl, rfl, rfl, rfl, rfl⟩
  unfold mergeNext
  cases hnx : mb.next with
  | none => exact hstay (by rw [hnx]; simp)
  | some n =>
    obtain ⟨l1, l2, hl⟩ := split_next h.main h.blk hnx
    obtain ⟨nb, hnb⟩ := (h.main.dom n).mpr (by rw [hl]; simp)
    obtain ⟨nf, pf, e1⟩ := h.st.rd hnb
    simp only [e1, bind, Except.bind]
    by_cases hf : nb.free = true
    · rw [if_pos hf]
      obtain ⟨s1, e2, st1⟩ := h.st.remove hnb hf
      rw [e2]
      simp only
      obtain ⟨nf1, pf1, e1'⟩ := st1.rd (upd_same _ _ _)
      rw [e1']
      simp only
      have hmain1 : MainInv (upd M n (some { nb with free := false })) L cap :=
        MainInv_set h.main hnb rfl rfl rfl rfl (Or.inl rfl)
      have hpb1 : b ≠ n := by
        have := h.main.nodup
        rw [hl, List.nodup_append, List.nodup_cons] at this
        rintro rfl; exact this.2.1.1 (by simp)
      have hb1 : upd M n (some { nb with free := false }) b = some mb := by
        rw [upd_ne _ _ hpb1]; exact h.blk
      have hmain1' := hmain1
      rw [hl] at hmain1'
      obtain ⟨m1, m2, ⟨x, m3, m3'⟩, m4, m5, m6, m7, m8, m9, m10, m11⟩ :=
        merge_pure hmain1' hb1 (upd_same _ _ _) h.nf rfl
      have hbp := Tile_bound h.main.tile n (by rw [hl]; simp) nb hnb
      have hbb := Tile_bound h.main.tile b h.mem mb h.blk
      have hdj := Tile_disjoint h.main.tile n (by rw [hl]; simp) b h.mem hpb1.symm nb mb hnb h.blk
      obtain ⟨s2, s3, s4, e3, e4, e5, st4⟩ := merge_links st1 hb1 (ab := { nb with free := false }) h.nf
        (by simp only; omega) m5
      simp only at e3 e4 e5
      rw [e3]
      simp only
      rw [e4]
      simp only
      rw [e5]
      simp only
      have stS := st4.stats (fun x => { x with free_blocks := wsub x.free_blocks 1 }) (fun _ _ => rfl)
      have hpool1 : PoolInv (linkM (upd M n (some { nb with free := false })) b mb { nb with free := false })
          pool fresh := by
        refine PoolInv_congr h.pool (fun j => ?_)
        rw [m6]
        by_cases e : j = n
        · rw [e, upd_same]; simp [hnb]
        · rw [upd_ne _ _ e]
      obtain ⟨s5, e6, stF, hp5⟩ := stS.destroy hpool1 m3 m3'
      rw [e6]
      have v1 := wsum_upd (w := szf true) (M := M) h.main.nodup (i := n) (by rw [hl]; simp)
        (some { nb with free := false })
      have v2 := wsum_upd (w := szf false) (M := M) h.main.nodup (i := n) (by rw [hl]; simp)
        (some { nb with free := false })
      have v3 := wsum_upd (w := cnf true) (M := M) h.main.nodup (i := n) (by rw [hl]; simp)
        (some { nb with free := false })
      have v4 := wsum_upd (w := cnf false) (M := M) h.main.nodup (i := n) (by rw [hl]; simp)
        (some { nb with free := false })
      rw [hnb] at v1 v2 v3 v4
      simp only [szf, cnf, hf, reduceCtorEq, if_true, if_false, Bool.false_eq_true, Bool.true_eq_false] at v1 v2 v3 v4
      have m9t := m9 true
      have m9f := m9 false
      rw [← hl] at m9t m9f m10 m11
      have hlen : wsum (cnf true) M L + wsum (cnf false) M L = L.length :=
        cn_sum (fun a ha => (h.main.dom a).mpr ha)
      have hlen2 := Tile_le h.main.tile
      have hfb := h.fb
      have hfr1 : ∀ q, fr M q = false → fr (upd M n (some { nb with free := false })) q = false := by
        intro q hq
        unfold fr at hq ⊢
        by_cases e : q = n
        · rw [e, upd_same]; rfl
        · rw [upd_ne _ _ e]; exact hq
      refine ⟨_, _, l1 ++ b :: l2, _, _,
        { mb with size := mb.size + nb.size, next := nb.next }, nb.size, rfl,
        ⟨stF, m1, hp5, by rw [upd_ne _ _ m4]; exact m2, h.nf, ?_⟩, rfl, rfl, ?_, ?_, ?_, ?_, ?_, ?_, ?_⟩
      · simp only [wsub]; omega
      · intro q hq
        exact m8 q (hfr1 q (adj_next h.main hnb hf hq))
      · intro q hq
        exact m8 q (hfr1 q hq)
      · intro i hi
        rw [m7 i hi]
        by_cases e : i = n
        · rw [if_pos e, e]; simp [live, hnb, hf]
        · rw [if_neg e]
          unfold live
          rw [upd_ne _ _ e]
      · rfl
      · omega
      · omega
      · omega
    · rw [if_neg hf]
      refine hstay ?_
      intro q hq
      rw [hnx] at hq; injection hq with hq; subst hq
      simp [fr, hnb]
      simpa using hf

theorem free_ok (hcap : cap < 2 ^ 64) (h : Inv B bias cap s L) {b : Nat} {x : Nat × Nat × Nat}
    (hb : live (Mv s) b = some x) :
    ∃ s' L', free B bias s b = .ok s' ∧ Inv B bias cap s' L' ∧
      ∀ i, live (Mv s') i = if i = b then none else live (Mv s) i := by
  obtain ⟨mb, hM, hnf, hx⟩ : ∃ mb, Mv s b = some mb ∧ mb.free = false ∧
      x = (mb.start, mb.offset, mb.size) := by
    unfold live at hb
    cases e : Mv s b with
    | none => rw [e] at hb; cases hb
    | some mb =>
      rw [e] at hb
      cases hf : mb.free with
      | true => simp [hf] at hb
      | false => simp [hf] at hb; exact ⟨mb, rfl, hf, hb.symm⟩
  have hbL : b ∈ L := (h.main.dom b).mp ⟨mb, hM⟩
  obtain ⟨i1, i2, i3, i4, i5, i6, i7, i8, i9⟩ := h.stat
  rw [free_eq]
  obtain ⟨nf, pf, e0⟩ := h.st.rd hM
  simp only [e0, bind, Except.bind]
  obtain ⟨s1, b1, M1, L1, pool1, t1, mb1, d1, e1, mid1, nx1, tt1, pv1, bl1, lv1, sz1, a1, a2, a3⟩ :=
    mergePrev_ok hcap (b := b) (mb := mb) (blk := { mb with nextF := nf, prevF := pf })
      ⟨h.st, h.main, h.pool, hM, hnf, i3⟩ ⟨rfl, rfl, rfl⟩
  rw [e1]
  simp only
  obtain ⟨s2, M2, L2, pool2, t2, mb2, d2, e2, mid2, pv2, tt2, nx2, fm2, lv2, sz2, c1, c2, c3⟩ :=
    mergeNext_ok hcap mid1
  rw [nx1] at e2
  rw [e2]
  simp only
  obtain ⟨s3, e3, st3⟩ := mid2.st.insert mid2.blk mid2.nf
  rw [e3]
  simp only [pure, Except.pure]
  have stF := st3.stats (fun y => { y with
      free_size := wadd y.free_size mb.size
      allocated_size := wsub y.allocated_size mb.size
      allocated_blocks := wsub y.allocated_blocks 1
      free_blocks := wadd y.free_blocks 1
      total_frees := wadd y.total_frees 1
      total_free_size := wadd y.total_free_size mb.size }) (fun _ _ => rfl)
  have hmain := MainInv_setfree mid2.main mid2.blk
    (fun q hq => fm2 q (pv1 q (by rw [← pv2]; exact hq))) nx2
  have v1 := wsum_upd (w := szf true) (M := M2) mid2.main.nodup mid2.mem (some { mb2 with free := true })
  have v2 := wsum_upd (w := szf false) (M := M2) mid2.main.nodup mid2.mem (some { mb2 with free := true })
  have v3 := wsum_upd (w := cnf true) (M := M2) mid2.main.nodup mid2.mem (some { mb2 with free := true })
  have v4 := wsum_upd (w := cnf false) (M := M2) mid2.main.nodup mid2.mem (some { mb2 with free := true })
  rw [mid2.blk] at v1 v2 v3 v4
  have hnf2 := mid2.nf
  simp only [szf, cnf, hnf2, reduceCtorEq, if_true, if_false, Bool.false_eq_true, Bool.true_eq_false] at v1 v2 v3 v4
  have hbs : mb.size ≤ wsum (szf false) (Mv s) L := by
    have := wsum_le_of_mem (w := szf false) (M := Mv s) hbL
    rw [hM] at this; simpa [szf, hnf] using this
  have hbc : 1 ≤ wsum (cnf false) (Mv s) L := by
    have := wsum_le_of_mem (w := cnf false) (M := Mv s) hbL
    rw [hM] at this; simpa [cnf, hnf] using this
  have hsum := Tile_sum h.main.tile
  have hsum2 := Tile_sum hmain.tile
  have hcn := cn_sum (l := L) (fun a ha => (h.main.dom a).mpr ha)
  have hlen := Tile_le h.main.tile
  have hcn2 := cn_sum (l := L2) (fun a ha => (hmain.dom a).mpr ha)
  have hlen2 := Tile_le hmain.tile
  have hlive : ∀ i, live (upd M2 b1 (some { mb2 with free := true })) i =
      if i = b then none else live (Mv s) i := by
    intro i
    by_cases e : i = b1
    · rw [e]
      have : live (upd M2 b1 (some { mb2 with free := true })) b1 = none := by simp [live, upd_same]
      rw [this]
      rcases bl1 with h1 | h1
      · rw [if_pos h1]
      · rw [h1]; simp
    · rw [← lv1 i e, ← lv2 i e]
      unfold live
      rw [upd_ne _ _ e]
  have hfb2 := mid2.fb
  have e4 := stF.main
  have e5 := stF.pool
  have e6 := stF.fresh
  refine ⟨_, L2, rfl, ⟨stF.free, by rw [e4]; exact hmain, ?_, ?_, ?_, h.pos⟩, by rw [e4]; exact hlive⟩
  · rw [e4, e5, e6]
    refine PoolInv_congr mid2.pool (fun j => ?_)
    by_cases e : j = b1
    · rw [e, upd_same]; simp [mid2.blk]
    · rw [upd_ne _ _ e]
  · intro i y hy
    rw [e4, hlive] at hy
    by_cases e : i = b
    · rw [if_pos e] at hy; cases hy
    · rw [if_neg e] at hy; exact h.used i y hy
  · rw [e4]
    refine StatInv.of_eq (t := _) ?_ stF.st
    rw [tt1] at tt2
    have u1 : t2.free_size = s.st.free_size := by rw [tt2]
    have u2 : t2.allocated_size = s.st.allocated_size := by rw [tt2]
    have u3 : t2.allocated_blocks = s.st.allocated_blocks := by rw [tt2]
    have u4 : t2.total_frees = s.st.total_frees := by rw [tt2]
    have u5 : t2.total_free_size = s.st.total_free_size := by rw [tt2]
    have u6 : t2.total_allocs = s.st.total_allocs := by rw [tt2]
    have u7 : t2.total_alloc_size = s.st.total_alloc_size := by rw [tt2]
    have u8 : t2.high_water = s.st.high_water := by rw [tt2]
    have u9 : t2.total_capacity = s.st.total_capacity := by rw [tt2]
    clear tt1 tt2
    refine ⟨?_, ?_, ?_, ?_, ?_, ?_, ?_, ?_, ?_⟩ <;>
      simp only [wadd, wsub, u1, u2, u3, u4, u5, u6, u7, u8, u9, hfb2]
    · omega
    · omega
    · omega
    · omega
    · exact i5
    · omega
    · omega
    · omega
    · omega

end Rpp.RA
