import Verif.Proof.RangeMain
import Verif.Proof.Str
import Mathlib.Data.List.Perm.Subperm

/-! The operations of the range allocator keep its structure. -/

namespace Rpp.RA
open Rpp

/-- A state: free lists in order, and the given main view, pool and statistics (except for the sizes
of the buckets). -/
structure St (B bias : Nat) (s : RA) (M : Nat → Option RBlock) (pool : List Nat) (fresh : Nat)
    (t : RStats) : Prop where
  free : ∃ F, FreeInv (Fv B bias s) s.heads s.st.bucket_sizes F
  main : Mv s = M
  pool : s.pool = pool
  fresh : s.fresh = fresh
  st : s.st = { t with bucket_sizes := s.st.bucket_sizes }
  pos : 0 < B

/-- The addresses below `fresh` are the blocks and the pool. -/
structure PoolInv (M : Nat → Option RBlock) (pool : List Nat) (fresh : Nat) : Prop where
  nodup : pool.Nodup
  dis : ∀ i ∈ pool, M i = none
  all : ∀ i, i < fresh ↔ (i ∈ pool ∨ ∃ b, M i = some b)

variable {B bias : Nat} {s : RA} {M : Nat → Option RBlock} {pool : List Nat} {fresh : Nat} {t : RStats}

theorem St.get (h : St B bias s M pool fresh t) {b : Nat} {mb : RBlock} (hb : M b = some mb) :
    ∃ blk, s.mem b = some blk ∧ mainOf blk = mb := by
  have := h.main
  rw [← this] at hb
  unfold Mv at hb
  cases e : s.mem b with
  | none => rw [e] at hb; cases hb
  | some blk => rw [e] at hb; injection hb with hb; exact ⟨blk, rfl, hb⟩

theorem St.rd (h : St B bias s M pool fresh t) {b : Nat} {mb : RBlock} (hb : M b = some mb) :
    ∃ n p, s.rd b = .ok { mb with nextF := n, prevF := p } := by
  obtain ⟨blk, h1, h2⟩ := h.get hb
  refine ⟨blk.nextF, blk.prevF, ?_⟩
  rw [rd_ok h1, ← h2]
  rfl

theorem St.remove (h : St B bias s M pool fresh t) {b : Nat} {mb : RBlock} (hb : M b = some mb)
    (hf : mb.free = true) : ∃ s', remove_free_block B bias s b = .ok s' ∧
      St B bias s' (upd M b (some { mb with free := false })) pool fresh t := by
  obtain ⟨F, hF⟩ := h.free
  obtain ⟨blk, h1, h2⟩ := h.get hb
  subst h2
  obtain ⟨s', F', e, i1, i2, i3, i4, i5, _⟩ := remove_ok h.pos hF h1 hf
  refine ⟨s', e, ⟨F', i1⟩, by rw [i2, h.main], by rw [i3, h.pool], by rw [i4, h.fresh], ?_, h.pos⟩
  rw [i5, h.st]

theorem St.insert (h : St B bias s M pool fresh t) {b : Nat} {mb : RBlock} (hb : M b = some mb)
    (hf : mb.free = false) : ∃ s', insert_free_block B bias s b = .ok s' ∧
      St B bias s' (upd M b (some { mb with free := true })) pool fresh t := by
  obtain ⟨F, hF⟩ := h.free
  obtain ⟨blk, h1, h2⟩ := h.get hb
  subst h2
  obtain ⟨s', F', e, i1, i2, i3, i4, i5⟩ := insert_ok h.pos hF h1 hf
  refine ⟨s', e, ⟨F', i1⟩, by rw [i2, h.main], by rw [i3, h.pool], by rw [i4, h.fresh], ?_, h.pos⟩
  rw [i5, h.st]

theorem St.wr (h : St B bias s M pool fresh t) {b : Nat} {mb : RBlock} (hb : M b = some mb)
    (f : RBlock → RBlock) (hf1 : ∀ x, mainOf (f x) = f (mainOf x))
    (hf2 : ∀ x, (f x).free = x.free ∧ (f x).nextF = x.nextF ∧ (f x).prevF = x.prevF)
    (hsz : mb.free = false ∨ ∀ x, (f x).size = x.size) :
    ∃ s', s.wr b f = .ok s' ∧ St B bias s' (upd M b (some (f mb))) pool fresh t := by
  obtain ⟨F, hF⟩ := h.free
  obtain ⟨blk, h1, h2⟩ := h.get hb
  refine ⟨_, wr_ok h1 f, ⟨F, ?_⟩, ?_, h.pool, h.fresh, h.st, h.pos⟩
  · rw [Fv_upd, upd_self]
    · exact hF
    · unfold Fv
      rw [h1]
      obtain ⟨q1, q2, q3⟩ := hf2 blk
      simp only [Option.bind_some, fbOf, q1, q2, q3]
      rcases hsz with h3 | h3
      · rw [← h2] at h3
        have : blk.free = false := h3
        simp [this]
      · rw [h3 blk]
  · rw [Mv_upd, h.main, hf1, h2]

theorem St.wrOpt (h : St B bias s M pool fresh t) {i : Option Nat}
    (hi : ∀ q, i = some q → ∃ b, M q = some b)
    (f : RBlock → RBlock) (hf1 : ∀ x, mainOf (f x) = f (mainOf x))
    (hf2 : ∀ x, (f x).free = x.free ∧ (f x).nextF = x.nextF ∧ (f x).prevF = x.prevF)
    (hsz : ∀ x, (f x).size = x.size) :
    ∃ s', s.wrOpt i f = .ok s' ∧
      St B bias s' (fun j => if i = some j then (M j).map f else M j) pool fresh t := by
  cases i with
  | none => exact ⟨s, rfl, by simpa using h⟩
  | some q =>
    obtain ⟨b, hb⟩ := hi q rfl
    obtain ⟨s', e, h'⟩ := h.wr hb f hf1 hf2 (Or.inr hsz)
    refine ⟨s', e, ?_⟩
    convert h' using 1
    funext j
    unfold upd
    by_cases hj : j = q
    · subst hj; simp [hb]
    · have : ¬ q = j := fun e => hj e.symm
      simp [hj, this]

theorem St.make (h : St B bias s M pool fresh t) (hp : PoolInv M pool fresh) {b : RBlock}
    (h1 : b.free = false) (h2 : mainOf b = b) :
    ∃ s' n pool' fresh', s.make b = (s', n) ∧ M n = none ∧
      St B bias s' (upd M n (some b)) pool' fresh' t ∧ PoolInv (upd M n (some b)) pool' fresh' := by
  obtain ⟨F, hF⟩ := h.free
  have key : ∀ n (pool' : List Nat) (fresh' : Nat), M n = none →
      St B bias { s with mem := upd s.mem n (some b), pool := pool', fresh := fresh' }
        (upd M n (some b)) pool' fresh' t := by
    intro n pool' fresh' hn
    have hm : s.mem n = none := by
      have := h.main
      rw [← this] at hn
      unfold Mv at hn
      cases e : s.mem n with
      | none => rfl
      | some x => rw [e] at hn; cases hn
    refine ⟨⟨F, ?_⟩, ?_, rfl, rfl, h.st, h.pos⟩
    · have e : Fv B bias { s with mem := upd s.mem n (some b), pool := pool', fresh := fresh' } =
          Fv B bias { s with mem := upd s.mem n (some b) } := rfl
      rw [e, Fv_upd, upd_self]
      · exact hF
      · unfold Fv
        rw [hm]
        simp [fbOf, h1]
    · have e : Mv { s with mem := upd s.mem n (some b), pool := pool', fresh := fresh' } =
          Mv { s with mem := upd s.mem n (some b) } := rfl
      rw [e, Mv_upd, h.main, h2]
  have hpool := h.pool
  have hfresh := h.fresh
  unfold RA.make
  rw [hpool]
  cases pool with
  | nil =>
    have hn : M fresh = none := by
      cases e : M fresh with
      | none => rfl
      | some x =>
        have := (hp.all fresh).mpr (Or.inr ⟨x, e⟩)
        omega
    refine ⟨_, _, [], fresh + 1, rfl, by rw [hfresh]; exact hn, ?_, ?_⟩
    · rw [hfresh]
      have := key fresh [] (fresh + 1) hn
      rw [← hpool] at this
      convert this using 2 <;> simp [hpool]
    · rw [hfresh]
      refine ⟨List.nodup_nil, by simp, fun i => ?_⟩
      have := hp.all i
      by_cases e : i = fresh
      · subst e; simp [upd_same]
      · rw [upd_ne _ _ e, ← this]; omega
  | cons a pool =>
    have hn : M a = none := hp.dis a List.mem_cons_self
    have hnd := hp.nodup
    rw [List.nodup_cons] at hnd
    refine ⟨_, _, pool, fresh, rfl, hn, ?_, ?_⟩
    · have := key a pool fresh hn
      rw [← hfresh] at this ⊢
      exact this
    · refine ⟨hnd.2, ?_, fun i => ?_⟩
      · intro i hi
        rw [upd_ne]
        · exact hp.dis i (List.mem_cons_of_mem _ hi)
        · rintro rfl; exact hnd.1 hi
      · rw [hp.all i]
        by_cases e : i = a
        · subst e; simp [upd_same]
        · rw [upd_ne _ _ e]; simp [e]

theorem St.destroy (h : St B bias s M pool fresh t) (hp : PoolInv M pool fresh) {b : Nat} {mb : RBlock}
    (hb : M b = some mb) (hf : mb.free = false) :
    ∃ s', s.destroy b = .ok s' ∧ St B bias s' (upd M b none) (b :: pool) fresh t ∧
      PoolInv (upd M b none) (b :: pool) fresh := by
  obtain ⟨F, hF⟩ := h.free
  obtain ⟨blk, h1, h2⟩ := h.get hb
  have hf' : blk.free = false := by rw [← h2] at hf; exact hf
  unfold RA.destroy
  rw [h1]
  refine ⟨_, rfl, ⟨⟨F, ?_⟩, ?_, by simp only; rw [h.pool], h.fresh, h.st, h.pos⟩, ?_, ?_, ?_⟩
  · have e : Fv B bias { s with mem := upd s.mem b none, pool := b :: s.pool } = Fv B bias s := by
      funext j
      unfold Fv upd
      by_cases hj : j = b
      · subst hj; simp [h1, fbOf, hf']
      · simp [hj]
    rw [e]; exact hF
  · rw [← h.main]
    funext j
    unfold Mv upd
    by_cases hj : j = b <;> simp [hj]
  · rw [List.nodup_cons]
    refine ⟨fun hm => ?_, hp.nodup⟩
    rw [hp.dis b hm] at hb; cases hb
  · intro i hi
    by_cases e : i = b
    · rw [e, upd_same]
    · rw [upd_ne _ _ e]
      rcases List.mem_cons.mp hi with h3 | h3
      · exact absurd h3 e
      · exact hp.dis i h3
  · intro i
    rw [hp.all i]
    by_cases e : i = b
    · subst e; simp [hb]
    · rw [upd_ne _ _ e]; simp [e]

theorem St.stats (h : St B bias s M pool fresh t) (g : RStats → RStats)
    (hg : ∀ x y, g { x with bucket_sizes := y } = { g x with bucket_sizes := y }) :
    St B bias { s with st := g s.st } M pool fresh (g t) := by
  obtain ⟨F, hF⟩ := h.free
  have e : (g s.st).bucket_sizes = s.st.bucket_sizes := by
    have := hg s.st s.st.bucket_sizes
    have h2 : g s.st = { g s.st with bucket_sizes := s.st.bucket_sizes } := this
    rw [h2]
  refine ⟨⟨F, ?_⟩, h.main, h.pool, h.fresh, ?_, h.pos⟩
  · simp only
    rw [e]
    exact hF
  · simp only
    rw [e]
    conv => lhs; rw [h.st]
    rw [hg]

/-! ### Size classes and the search -/

theorem log2_mono {a b : Nat} (h0 : 0 < a) (hab : a ≤ b) (hb : b < 2 ^ 64) :
    Math.log2 64 a ≤ Math.log2 64 b := by
  obtain ⟨_, a1, a2, _⟩ := Math.log2_spec (w := 64) h0 (by omega)
  obtain ⟨_, b1, b2, _⟩ := Math.log2_spec (w := 64) (x := b) (by omega) hb
  have : 2 ^ Math.log2 64 a < 2 ^ (Math.log2 64 b + 1) := by
    have := Nat.lt_of_le_of_lt a1 (Nat.lt_of_le_of_lt hab b2)
    exact this
  have := (Nat.pow_lt_pow_iff_right (by omega : 1 < 2)).mp this
  omega

theorem size_to_idx_mono {a b : Nat} (h0 : 0 < a) (hab : a ≤ b) (hb : b < 2 ^ 64) :
    size_to_idx B bias a ≤ size_to_idx B bias b := by
  have := log2_mono h0 hab hb
  have h1 : Math.log2 64 a < 64 := by have := (Rpp.Math.log2_spec h0 (Nat.lt_of_le_of_lt hab hb)).1; omega
  have h2 : Math.log2 64 b < 64 := by have := (Rpp.Math.log2_spec (Nat.lt_of_lt_of_le h0 hab) hb).1; omega
  unfold size_to_idx
  simp only
  split <;> split <;> omega

theorem firstBucket_spec {heads : Nat → Option Nat} (hB : B < 256) : ∀ fuel idx, idx ≤ B → B - idx < fuel →
    ∃ r, firstBucket B heads fuel idx = .ok r ∧ idx ≤ r ∧ r ≤ B ∧ (∀ j, idx ≤ j → j < r → heads j = none) ∧
      (r < B → heads r ≠ none) := by
  intro fuel
  induction fuel with
  | zero => intro idx _ h; omega
  | succ n ih =>
    intro idx hi hf
    unfold firstBucket
    split
    · rename_i h
      rw [Nat.mod_eq_of_lt (by omega)]
      obtain ⟨r, h1, h2, h3, h4, h5⟩ := ih (idx + 1) (by omega) (by omega)
      refine ⟨r, h1, by omega, h3, fun j hj hj2 => ?_, h5⟩
      by_cases e : j = idx
      · rw [e]; simpa using h.2
      · exact h4 j (by omega) hj2
    · rename_i h
      exact ⟨idx, rfl, by omega, by omega, by omega, fun hb => by simpa [hb] using h⟩

/-- The buckets after `idx`; there are `n`. -/
def rest (F : Nat → List Nat) : Nat → Nat → List Nat
  | 0, _ => []
  | n + 1, idx => F (idx + 1) ++ rest F n (idx + 1)

theorem mem_rest {F : Nat → List Nat} {x : Nat} : ∀ n idx,
    x ∈ rest F n idx ↔ ∃ j, idx < j ∧ j ≤ idx + n ∧ x ∈ F j := by
  intro n
  induction n with
  | zero => intro idx; simp [rest]; omega
  | succ n ih =>
    intro idx
    rw [rest, List.mem_append, ih]
    constructor
    · rintro (h | ⟨j, h1, h2, h3⟩)
      · exact ⟨idx + 1, by omega, by omega, h⟩
      · exact ⟨j, by omega, by omega, h3⟩
    · rintro ⟨j, h1, h2, h3⟩
      by_cases e : j = idx + 1
      · left; rw [← e]; exact h3
      · right; exact ⟨j, by omega, by omega, h3⟩

theorem nodup_rest {V : Nat → Option FB} {heads : Nat → Option Nat} {cnt : Nat → Nat}
    {F : Nat → List Nat} (h : FreeInv V heads cnt F) : ∀ n idx, (F idx ++ rest F n idx).Nodup := by
  have huniq : ∀ x i j, x ∈ F i → x ∈ F j → i = j := by
    intro x i j hi hj
    obtain ⟨r1, u1, u2⟩ := (h.mem x i).mp hi
    obtain ⟨r2, u3, u4⟩ := (h.mem x j).mp hj
    rw [u1] at u3; injection u3 with u3
    rw [← u2, u3, u4]
  intro n
  induction n with
  | zero => intro idx; simp [rest]; exact h.nodup idx
  | succ n ih =>
    intro idx
    rw [List.nodup_append]
    refine ⟨h.nodup idx, ih (idx + 1), ?_⟩
    rintro a ha b hb rfl
    obtain ⟨j, h1, h2, h3⟩ := (mem_rest (n + 1) idx).mp hb
    have := huniq a idx j ha h3
    omega

theorem advance_spec {V : Nat → Option FB} {heads : Nat → Option Nat} {cnt : Nat → Nat}
    {F : Nat → List Nat} (h : FreeInv V heads cnt F) (hB : B < 256) : ∀ n idx (l : List Nat) (fuel : Nat),
    idx + n = B - 1 → n < fuel →
    ∃ l' idx' n', advance B heads fuel l.head? idx = .ok (l'.head?, idx') ∧ idx' + n' = idx + n ∧
      l ++ rest F n idx = l' ++ rest F n' idx' ∧ (l' = [] → n' = 0) ∧
      ((l' = l ∧ idx' = idx) ∨ l' = F idx') := by
  intro n
  induction n with
  | zero =>
    intro idx l fuel hn hf
    obtain ⟨fuel, rfl⟩ : ∃ k, fuel = k + 1 := ⟨fuel - 1, by omega⟩
    refine ⟨l, idx, 0, ?_, rfl, rfl, fun _ => rfl, Or.inl ⟨rfl, rfl⟩⟩
    cases l with
    | nil => simp only [List.head?_nil, advance]; rw [if_neg (by omega)]
    | cons a l => rfl
  | succ n ih =>
    intro idx l fuel hn hf
    obtain ⟨fuel, rfl⟩ : ∃ k, fuel = k + 1 := ⟨fuel - 1, by omega⟩
    cases l with
    | cons a l => exact ⟨a :: l, idx, n + 1, rfl, rfl, rfl, by simp, Or.inl ⟨rfl, rfl⟩⟩
    | nil =>
      obtain ⟨l', idx', n', h1, h2, h3, h4, h5⟩ := ih (idx + 1) (F (idx + 1)) fuel (by omega) (by omega)
      refine ⟨l', idx', n', ?_, by omega, ?_, h4, ?_⟩
      · simp only [List.head?_nil, advance]
        rw [if_pos (by omega), Nat.mod_eq_of_lt (show idx + 1 < 2 ^ 8 by omega), bkt_ok (by omega), h.head]
        exact h1
      · rw [List.nil_append, rest]; exact h3
      · right
        rcases h5 with ⟨h5, h6⟩ | h5
        · rw [h5, h6]
        · exact h5

/-- The block holds `size` at a multiple of `align`, at distance `pad` from its start. -/
def Fits (mb : RBlock) (size align pad : Nat) : Prop :=
  align ∣ mb.start + pad ∧ size + pad ≤ mb.size ∧ pad < align

/-- No place in the block will do. -/
def NoFit (mb : RBlock) (size align : Nat) : Prop :=
  ∀ o, align ∣ o → mb.start ≤ o → ¬ o + size ≤ mb.start + mb.size

theorem padding_ok {start align : Nat} (ha : 0 < align) (hs : start < 2 ^ 64) (haw : align ≤ 2 ^ 64) :
    ∃ pad, Math.align 64 start align = .ok ((start + pad) % 2 ^ 64) ∧ wsub ((start + pad) % 2 ^ 64) start = pad ∧
      pad < align ∧ align ∣ start + pad ∧ ∀ o, align ∣ o → start ≤ o → start + pad ≤ o := by
  by_cases h0 : start % align = 0
  · refine ⟨0, ?_, ?_, ha, ?_, fun o _ ho => by omega⟩
    · unfold Math.align; rw [if_neg (by omega)]; simp only [h0, if_true]; congr 1; omega
    · unfold wsub; omega
    · simpa using Nat.dvd_of_mod_eq_zero h0
  · have hr : start % align < align := Nat.mod_lt _ ha
    refine ⟨align - start % align, ?_, ?_, by omega, ?_, ?_⟩
    · unfold Math.align Math.subw
      rw [if_neg (by omega)]
      simp only [if_neg h0]
      congr 1
      omega
    · unfold wsub; omega
    · have h1 := Nat.div_add_mod start align
      refine ⟨start / align + 1, ?_⟩
      rw [Nat.mul_add]
      omega
    · rintro o ⟨q, rfl⟩ ho
      have h1 := Nat.div_add_mod start align
      have : start / align < q := by
        rw [Nat.div_lt_iff_lt_mul ha, Nat.mul_comm]
        rcases Nat.lt_or_ge start (align * q) with h2 | h2
        · exact h2
        · have : start = align * q := by omega
          rw [this] at h0; simp at h0
      have h2 : align * (start / align + 1) ≤ align * q := Nat.mul_le_mul_left _ this
      rw [Nat.mul_add] at h2
      omega

theorem search_spec (hB : B < 256) {F : Nat → List Nat} (h : FreeInv (Fv B bias s) s.heads s.st.bucket_sizes F)
    {size align : Nat} (hsz : size + align ≤ 2 ^ 64) (ha : 0 < align)
    (hbd : ∀ i b, s.mem i = some b → b.start + b.size < 2 ^ 64) :
    ∀ fuel (l : List Nat) idx n, (∃ pre, F idx = pre ++ l) → idx + n = B - 1 → (l = [] → n = 0) →
      (l ++ rest F n idx).length < fuel →
      (∃ b pad blk, search B s size align fuel l.head? idx = .ok (some (b, pad)) ∧
        b ∈ l ++ rest F n idx ∧ s.mem b = some blk ∧ Fits blk size align pad) ∨
      (search B s size align fuel l.head? idx = .ok none ∧
        ∀ b ∈ l ++ rest F n idx, ∀ blk, s.mem b = some blk → NoFit blk size align) := by
  intro fuel
  induction fuel with
  | zero => intro l idx n _ _ _ hf; omega
  | succ f ih =>
    intro l idx n hpre hn hl hf
    cases l with
    | nil =>
      right
      have : n = 0 := hl rfl
      subst this
      exact ⟨rfl, by simp [rest]⟩
    | cons b l =>
      obtain ⟨pre, hpre⟩ := hpre
      have hseg := h.seg idx
      rw [hpre] at hseg
      obtain ⟨r, hr, _, hnx⟩ := Seg_get hseg
      obtain ⟨blk, q1, q2, q3⟩ := Fv_some hr
      rw [q3] at hnx
      simp only [Option.or_none] at hnx
      have hb := hbd b blk q1
      obtain ⟨pad, p1, p2, p3, p4, p5⟩ := padding_ok (start := blk.start) ha (by omega) (by omega)
      simp only [List.head?_cons, search, rd_ok q1, bind, Except.bind, p1, p2]
      have hw : wadd size pad = size + pad := by unfold wadd; omega
      rw [hw]
      by_cases hfit : blk.size ≥ size + pad
      · left
        rw [if_pos hfit]
        exact ⟨b, pad, blk, rfl, by simp, q1, p4, hfit, p3⟩
      · rw [if_neg hfit, hnx]
        obtain ⟨l', idx', n', a1, a2, a3, a4, a5⟩ := advance_spec h hB (B - 1 - idx) idx l 257
          (by omega) (by omega)
        rw [a1]
        dsimp only
        have hnn : B - 1 - idx = n := by omega
        rw [hnn] at a2 a3
        have hnofit : NoFit blk size align := by
          intro o h1 h2 h3
          have := p5 o h1 h2
          omega
        have hpre' : ∃ pre, F idx' = pre ++ l' := by
          rcases a5 with ⟨e1, e2⟩ | e
          · exact ⟨pre ++ [b], by rw [e1, e2, hpre]; simp⟩
          · exact ⟨[], by rw [e]; rfl⟩
        have hlen : (l' ++ rest F n' idx').length < f := by
          rw [← a3]; simp only [List.length_append, List.length_cons] at hf ⊢; omega
        rcases ih l' idx' n' hpre' (by omega) a4 hlen with ⟨b', pad', blk', e1, e2, e3, e4⟩ | ⟨e1, e2⟩
        · left
          refine ⟨b', pad', blk', e1, ?_, e3, e4⟩
          rw [← a3] at e2
          exact List.mem_cons_of_mem _ e2
        · right
          refine ⟨e1, ?_⟩
          rw [← a3] at e2
          intro x hx blkx hbx
          rcases List.mem_cons.mp hx with rfl | hx
          · rw [q1] at hbx; injection hbx with hbx; subst hbx; exact hnofit
          · exact e2 x hx blkx hbx

theorem nodup_bound {l : List Nat} {n : Nat} (hn : l.Nodup) (h : ∀ x ∈ l, x < n) : l.length ≤ n := by
  have : l ⊆ List.range n := fun x hx => List.mem_range.mpr (h x hx)
  have := (hn.subperm this).length_le
  simpa using this

end Rpp.RA
