import Verif.Spec.RegionRun
import Verif.Model.Region
import Verif.Spec.Region

/-! Invariants of the region allocator. -/

namespace Rpp.Reg
open Rpp Rpp.Spec

/-- Sum of sizes. -/
def tot (g : List MBlock) : Nat := (g.map MBlock.size).sum

/-- The list of chunks is in order. -/
def Good (lim : Nat) : List Chunk → Prop
  | [] => False
  | [c] => c.id = 0 ∧ c.size = 1000 ∧ c.used ≤ c.size
  | c :: d :: cs => 0 < c.used ∧ c.used ≤ c.size ∧ 2 * (d.size + 24) ≤ c.size + 24 ∧ c.size + 24 ≤ lim ∧
      Good lim (d :: cs)

/-- Handing out the blocks `g` turned the chunks `S` into `cs`. -/
inductive Grow (lim : Nat) (S : List Chunk) : List MBlock → List Chunk → Prop
  | nil : Good lim S → Grow lim S [] S
  | fit {g : List MBlock} {c : Chunk} {cs : List Chunk} {n : Nat} : Grow lim S g (c :: cs) →
      Good lim ({ c with used := c.used + n } :: cs) →
      Grow lim S (⟨c.id, c.used, n⟩ :: g) ({ c with used := c.used + n } :: cs)
  | push {g : List MBlock} {cs : List Chunk} {id z n : Nat} : Grow lim S g cs →
      Good lim (⟨id, z, n⟩ :: cs) → cs ≠ [] → id ∉ cs.map Chunk.id →
      Grow lim S (⟨id, 0, n⟩ :: g) (⟨id, z, n⟩ :: cs)

variable {lim : Nat} {S cs : List Chunk} {g : List MBlock}

theorem Grow.good (h : Grow lim S g cs) : Good lim cs := by
  cases h with
  | nil h => exact h
  | fit _ h => exact h
  | push _ h => exact h

def sumUsed (cs : List Chunk) : Nat := (cs.map Chunk.used).sum

theorem Grow.sum (h : Grow lim S g cs) : sumUsed cs = sumUsed S + tot g := by
  induction h with
  | nil h => simp [tot]
  | fit _ h ih => simp [sumUsed, tot] at ih ⊢; omega
  | push _ h _ _ ih => simp [sumUsed, tot] at ih ⊢; omega

theorem Good.bound : ∀ {cs : List Chunk}, Good lim cs → sumUsed cs ≤ 2 * max lim 1024 ∧
    ∀ c ds, cs = c :: ds → sumUsed cs ≤ 2 * (c.size + 24) ∧ c.size + 24 ≤ max lim 1024 ∧ c.used ≤ c.size
  | [], h => h.elim
  | [c], h => by
    obtain ⟨h1, h2, h3⟩ := h
    have : sumUsed [c] = c.used := by simp [sumUsed]
    refine ⟨by omega, ?_⟩
    rintro c' ds ⟨⟩
    omega
  | c :: d :: cs, h => by
    obtain ⟨h1, h2, h3, h4, h5⟩ := h
    obtain ⟨_, i2⟩ := Good.bound h5
    obtain ⟨i2, i3, _⟩ := i2 d cs rfl
    have : sumUsed (c :: d :: cs) = c.used + sumUsed (d :: cs) := by simp [sumUsed]
    refine ⟨by omega, ?_⟩
    rintro c' ds ⟨⟩
    omega

theorem Grow.trans {S' : List Chunk} {g' : List MBlock} (h : Grow lim S g cs) (h' : Grow lim S' g' S) :
    Grow lim S' (g ++ g') cs := by
  induction h with
  | nil h => exact h'
  | fit _ h ih => exact Grow.fit ih h
  | push _ h h1 h2 ih => exact Grow.push ih h h1 h2

/-- Releasing exactly the blocks handed out restores the chunks. -/
theorem Grow.pop (hlim : lim < 2 ^ 62) (h : Grow lim S g cs) : ∀ freed, ∃ P,
    popChunks cs (tot g) freed = .ok (S, P.reverse ++ freed) ∧
      cs.map Chunk.id = P ++ S.map Chunk.id := by
  induction h with
  | nil h =>
    intro freed
    refine ⟨[], ?_, rfl⟩
    have hb := h.bound
    cases S with
    | nil => exact h.elim
    | cons c S =>
      obtain ⟨_, h2, h3⟩ := hb.2 c S rfl
      have e : wsub c.used (tot []) = c.used := by simp [tot, wsub]; omega
      unfold popChunks
      rw [if_neg (by simp [tot])]
      cases S with
      | nil => simp only [e]; rfl
      | cons d S =>
        simp only [e]
        have := h.1
        rw [if_neg (by omega)]
        rfl
  | @fit g c cs n hg h ih =>
    intro freed
    obtain ⟨P, ih, hP⟩ := ih freed
    refine ⟨P, ?_, hP⟩
    rw [← ih]
    obtain ⟨_, hb, hc⟩ := h.bound.2 _ _ rfl
    simp only at hb hc
    have hs := hg.sum
    have hb2 := hg.good.bound.1
    have ht : tot (⟨c.id, c.used, n⟩ :: g) = n + tot g := by simp [tot]
    rw [ht]
    unfold popChunks
    simp only
    by_cases hgt : tot g > c.used
    · rw [if_pos (by omega), if_pos hgt]
      have : wsub (n + tot g) (c.used + n) = wsub (tot g) c.used := by unfold wsub; omega
      rw [this]
    · rw [if_neg (by omega), if_neg hgt]
      have : wsub (c.used + n) (n + tot g) = wsub c.used (tot g) := by unfold wsub; omega
      rw [this]
  | @push g cs id z n hg h h1 h2 ih =>
    intro freed
    obtain ⟨P, ih, hP⟩ := ih (id :: freed)
    obtain ⟨_, hb, hc⟩ := h.bound.2 _ _ rfl
    simp only at hb hc
    have hs := hg.sum
    have hb2 := hg.good.bound.1
    have ht : tot (⟨id, 0, n⟩ :: g) = n + tot g := by simp [tot]
    rw [ht]
    cases cs with
    | nil => exact absurd rfl h1
    | cons d cs =>
      unfold popChunks
      simp only
      by_cases hz : tot g = 0
      · -- nothing else to release
        obtain ⟨hd0, hd2⟩ : popChunks (d :: cs) (tot g) (id :: freed) = .ok (d :: cs, id :: freed) ∧ True := by
          refine ⟨?_, trivial⟩
          rw [hz]
          obtain ⟨_, k2, k3⟩ := hg.good.bound.2 _ _ rfl
          have e : wsub d.used 0 = d.used := by simp [wsub]; omega
          unfold popChunks
          rw [if_neg (by omega)]
          cases cs with
          | nil => simp only [e]
          | cons d' cs =>
            simp only [e]
            have := hg.good.1
            rw [if_neg (by omega)]
        rw [hd0] at ih
        injection ih with ih
        injection ih with ih1 ih2
        refine ⟨id :: P, ?_, by rw [← ih1] at hP ⊢; simp at hP; simp [hP]⟩
        rw [if_neg (by omega), hz]
        have : wsub n (n + 0) = 0 := by unfold wsub; omega
        rw [this]
        rw [if_pos rfl, ih1, List.reverse_cons, List.append_assoc, List.singleton_append, ← ih2]
      · refine ⟨id :: P, ?_, by simp at hP; simp [hP]⟩
        rw [if_pos (by omega)]
        have : wsub (n + tot g) n = tot g := by unfold wsub; omega
        rw [this, ih]
        simp

/-- The blocks handed out are in the used parts of the chunks and disjoint. -/
theorem Grow.valid (h : Grow lim S g cs) (hS : sumUsed S = 0) (hnd : (S.map Chunk.id).Nodup) :
    (cs.map Chunk.id).Nodup ∧
    (∀ b ∈ g, ∃ c ∈ cs, c.id = b.chunk ∧ b.off + b.size ≤ c.used) ∧
    g.Pairwise MBlock.Disjoint := by
  induction h with
  | nil h => exact ⟨hnd, by simp, by simp⟩
  | @fit g c cs n hg h ih =>
    obtain ⟨i1, i2, i3⟩ := ih
    refine ⟨i1, ?_, ?_⟩
    · intro b hb
      rcases List.mem_cons.mp hb with rfl | hb
      · exact ⟨_, List.mem_cons_self, rfl, Nat.le_refl _⟩
      · obtain ⟨c', h1, h2, h3⟩ := i2 b hb
        rcases List.mem_cons.mp h1 with rfl | h1
        · exact ⟨_, List.mem_cons_self, h2, by simp only; omega⟩
        · exact ⟨c', List.mem_cons_of_mem _ h1, h2, h3⟩
    · refine List.pairwise_cons.mpr ⟨fun b hb x hx => ?_, i3⟩
      simp only at hx
      obtain ⟨c', h1, h2, h3⟩ := i2 b hb
      rcases List.mem_cons.mp h1 with rfl | h1
      · omega
      · have : c.id ∉ cs.map Chunk.id := by
          rw [List.map_cons, List.nodup_cons] at i1; exact i1.1
        apply this
        rw [hx.1, ← h2]
        exact List.mem_map_of_mem h1
  | @push g cs id z n hg h h1 h2 ih =>
    obtain ⟨i1, i2, i3⟩ := ih
    refine ⟨by rw [List.map_cons, List.nodup_cons]; exact ⟨h2, i1⟩, ?_, ?_⟩
    · intro b hb
      rcases List.mem_cons.mp hb with rfl | hb
      · exact ⟨_, List.mem_cons_self, rfl, by simp⟩
      · obtain ⟨c', k1, k2, k3⟩ := i2 b hb
        exact ⟨c', List.mem_cons_of_mem _ k1, k2, k3⟩
    · refine List.pairwise_cons.mpr ⟨fun b hb x hx => ?_, i3⟩
      simp only at hx
      obtain ⟨c', k1, k2, k3⟩ := i2 b hb
      apply h2
      rw [hx.1, ← k2]
      exact List.mem_map_of_mem k1

/-- The chunks and the scopes fit together. -/
def Chain (lim : Nat) : List Chunk → List Scope → Prop
  | cs, [] => cs = init.chunks
  | cs, c :: sc => Grow lim c.saved c.blocks cs ∧ c.size0 = tot (allBlocks sc) ∧ Chain lim c.saved sc

/-- The arrays and the scopes fit together. -/
def Arr (offsets brands : Nat → Nat) : List Scope → Prop
  | [] => True
  | c :: sc => offsets sc.length = tot (allBlocks (c :: sc)) ∧ brands sc.length = c.brand ∧
      Arr offsets brands sc

structure Inv (lim : Nat) (s : Reg) (sc : List Scope) : Prop where
  chain : Chain lim s.chunks sc
  arr : Arr s.offsets s.brands sc
  cur : s.current + 1 = sc.length
  base : ∀ c, sc.getLast? = some c → c.brand = 0
  ids : (s.chunks.map Chunk.id ++ s.freed).Perm (List.range s.fresh)

/-- Blocks of sizes divisible by `a` have offsets divisible by `a`. -/
theorem Grow.dvd {a : Nat} (h : Grow lim S g cs) (hS : ∀ c ∈ S, a ∣ c.used) (hg : ∀ b ∈ g, a ∣ b.size) :
    (∀ c ∈ cs, a ∣ c.used) ∧ ∀ b ∈ g, a ∣ b.off := by
  induction h with
  | nil _ => exact ⟨hS, fun b hb => by cases hb⟩
  | @fit g c cs n _ _ ih =>
    obtain ⟨h1, h2⟩ := ih (fun b hb => hg b (List.mem_cons_of_mem _ hb))
    have hn : a ∣ n := hg ⟨c.id, c.used, n⟩ (by simp)
    have hc := h1 c (by simp)
    constructor
    · intro d hd
      rcases List.mem_cons.1 hd with rfl | hd
      · exact Nat.dvd_add hc hn
      · exact h1 d (by simp [hd])
    · intro b hb
      rcases List.mem_cons.1 hb with rfl | hb
      · exact hc
      · exact h2 b hb
  | @push g cs id z n _ _ _ _ ih =>
    obtain ⟨h1, h2⟩ := ih (fun b hb => hg b (List.mem_cons_of_mem _ hb))
    have hn : a ∣ n := hg ⟨id, 0, n⟩ (by simp)
    constructor
    · intro d hd
      rcases List.mem_cons.1 hd with rfl | hd
      · exact hn
      · exact h1 d hd
    · intro b hb
      rcases List.mem_cons.1 hb with rfl | hb
      · exact Nat.dvd_zero a
      · exact h2 b hb

theorem Arr_congr {o o' b b' : Nat → Nat} : ∀ {sc : List Scope}, Arr o b sc →
    (∀ i, i < sc.length → o' i = o i ∧ b' i = b i) → Arr o' b' sc
  | [], _, _ => trivial
  | c :: sc, h, hc => by
    obtain ⟨h1, h2, h3⟩ := h
    have hc1 := hc sc.length (by simp)
    exact ⟨by rw [hc1.1]; exact h1, by rw [hc1.2]; exact h2,
      Arr_congr h3 (fun i hi => hc i (by simp; omega))⟩

theorem Chain.grow : ∀ {cs : List Chunk} {sc : List Scope}, Chain lim cs sc →
    Grow lim init.chunks (allBlocks sc) cs
  | cs, [], h => by
    have : cs = init.chunks := h
    subst this
    exact Grow.nil ⟨rfl, rfl, Nat.zero_le _⟩
  | cs, c :: sc, h => h.1.trans h.2.2.grow

theorem tot_cons (b : MBlock) (g : List MBlock) : tot (b :: g) = b.size + tot g := by simp [tot]

theorem tot_append (g g' : List MBlock) : tot (g ++ g') = tot g + tot g' := by simp [tot]

theorem allBlocks_cons (c : Scope) (sc : List Scope) :
    allBlocks (c :: sc) = c.blocks ++ allBlocks sc := by simp [allBlocks]

/-- A request of at least `2 ^ 63` bytes. -/
theorem alloc_huge (hlim : lim < 2 ^ 62) {s : Reg} {c : Scope} {sc : List Scope} (h : Inv lim s (c :: sc))
    {n : Nat} (hn : 2 ^ 63 ≤ n) (hn' : n < 2 ^ 64) :
    (n < 2 ^ 64 - 24 → alloc lim s c.brand n = .error .oom) ∧
    (2 ^ 64 - 24 ≤ n → ∃ k ks, s.chunks = k :: ks ∧ (lim < 2 * (k.size + 24) → alloc lim s c.brand n = .error .oom) ∧
      (2 * (k.size + 24) ≤ lim → ∃ s' m, alloc lim s c.brand n = .ok (s', s.fresh, 0) ∧
        s'.chunks = ⟨s.fresh, m, n⟩ :: s.chunks ∧ m < n ∧ m ≤ lim)) := by
  have hcur : s.current = sc.length := by have := h.cur; simp at this; exact this
  obtain ⟨a1, a2, a3⟩ := h.arr
  have hg := h.chain.1.good
  have hbr : ¬ s.brands s.current ≠ c.brand := by rw [hcur, a2]; simp
  have hbd := hg.bound
  unfold alloc assert_brand
  rw [if_neg hbr]
  simp only [bind, Except.bind]
  cases hcs : s.chunks with
  | nil => rw [hcs] at hg; exact hg.elim
  | cons k ks =>
    obtain ⟨hb1, hb2, hb3⟩ := hbd.2 k ks hcs
    have hw : wsub k.size k.used < n := by unfold wsub; omega
    have hb : wmul 2 (wadd k.size CHUNK) = 2 * (k.size + 24) := by unfold wadd wmul CHUNK; omega
    simp only [if_pos hw]
    unfold new_chunk
    simp only [hcs, hb]
    constructor
    · intro hlt
      have ha : wadd n CHUNK = n + 24 := by unfold wadd CHUNK; omega
      rw [ha, if_pos (by omega)]
    · intro hge
      have ha : wadd n CHUNK = n + 24 - 2 ^ 64 := by unfold wadd CHUNK; omega
      have hm : max (n + 24 - 2 ^ 64) (2 * (k.size + 24)) = 2 * (k.size + 24) := by
        have : n + 24 - 2 ^ 64 < 24 := by omega
        generalize n + 24 - 2 ^ 64 = z at this
        exact Nat.max_eq_right (by omega)
      rw [ha, hm]
      refine ⟨k, ks, rfl, fun hl => ?_, fun hl => ?_⟩
      · rw [if_pos hl]
      · rw [if_neg (by omega)]
        have h0 : wadd 0 n = n := by unfold wadd; omega
        have hs : wsub (2 * (k.size + 24)) CHUNK = 2 * k.size + 24 := by unfold wsub CHUNK; omega
        refine ⟨_, 2 * k.size + 24, rfl, ?_, by omega, by omega⟩
        simp only [h0, hs]

/-- `alloc` with the right brand. -/
theorem alloc_ok (hlim : lim < 2 ^ 62) {s : Reg} {c : Scope} {sc : List Scope} (h : Inv lim s (c :: sc))
    {n : Nat} (hn : n < 2 ^ 63) :
    (∃ s' id off, alloc lim s c.brand n = .ok (s', id, off) ∧
      Inv lim s' ({ c with blocks := ⟨id, off, n⟩ :: c.blocks } :: sc)) ∨
    alloc lim s c.brand n = .error .oom := by
  have hcur : s.current = sc.length := by have := h.cur; simp at this; exact this
  obtain ⟨a1, a2, a3⟩ := h.arr
  obtain ⟨c1, c2, c3⟩ := h.chain
  have hgr := h.chain.grow
  have hsum := hgr.sum
  have hg := c1.good
  have hbr : ¬ s.brands s.current ≠ c.brand := by rw [hcur, a2]; simp
  unfold alloc assert_brand
  rw [if_neg hbr]
  simp only [bind, Except.bind]
  have hbd := hg.bound
  cases hcs : s.chunks with
  | nil => rw [hcs] at hg; exact hg.elim
  | cons k ks =>
    rw [hcs] at hg hbd c1 hsum
    obtain ⟨hb1, hb2, hb3⟩ := hbd.2 k ks rfl
    simp only
    have hinit : sumUsed init.chunks = 0 := rfl
    have hoff : ∀ b : MBlock, b.size = n → n ≤ max lim 1024 →
        Arr (set s.offsets s.current (wadd (s.offsets s.current) n)) s.brands
          ({ c with blocks := b :: c.blocks } :: sc) := by
      intro b hb hnl
      refine ⟨?_, a2, ?_⟩
      · rw [hcur]
        unfold set
        rw [if_pos rfl, a1, allBlocks_cons, allBlocks_cons]
        simp only [List.cons_append]
        rw [tot_cons, hb]
        rw [allBlocks_cons] at hsum
        unfold wadd
        omega
      · refine Arr_congr a3 (fun i hi => ?_)
        unfold set
        rw [if_neg (by omega)]
        exact ⟨rfl, rfl⟩
    have hbase : ∀ b : MBlock, ∀ c', ({ c with blocks := b :: c.blocks } :: sc).getLast? = some c' →
        c'.brand = 0 := by
      intro b c' hc'
      cases sc with
      | nil =>
        simp at hc'
        rw [← hc']
        exact h.base c (by simp)
      | cons d sc =>
        apply h.base c'
        rw [List.getLast?_cons] at hc' ⊢
        simpa [List.getLast?_cons] using hc'
    by_cases hfit : wsub k.size k.used < n
    · -- a new chunk
      rw [if_pos hfit]
      unfold new_chunk
      rw [hcs]
      simp only
      by_cases hl : max (wadd n CHUNK) (wmul 2 (wadd k.size CHUNK)) > lim
      · right
        rw [if_pos hl]
      · left
        rw [if_neg hl]
        simp only [pure, Except.pure]
        have hw1 : wadd n CHUNK = n + 24 := by unfold wadd CHUNK; omega
        have hw2 : wmul 2 (wadd k.size CHUNK) = 2 * (k.size + 24) := by unfold wmul wadd CHUNK; omega
        rw [hw1, hw2] at hl ⊢
        generalize hz : max (n + 24) (2 * (k.size + 24)) = z at hl ⊢
        have hw3 : wsub z CHUNK = z - 24 := by unfold wsub CHUNK; omega
        have hw4 : wadd 0 n = n := by unfold wadd; omega
        rw [hw3, hw4]
        have hgood : Good lim (⟨s.fresh, z - 24, n⟩ :: k :: ks) :=
          ⟨by simp only; omega, by simp only; omega, by simp only; omega, by simp only; omega, hg⟩
        have hids := h.ids
        rw [hcs] at hids
        have hfresh : s.fresh ∉ (k :: ks).map Chunk.id := by
          intro hm
          have := hids.mem_iff.mp (List.mem_append_left _ hm)
          simp at this
        refine ⟨_, s.fresh, 0, rfl, ⟨⟨?_, c2, c3⟩, hoff _ rfl (by omega), h.cur, hbase _, ?_⟩⟩
        · exact Grow.push c1 hgood (by simp) hfresh
        · simp only [List.map_cons, List.cons_append]
          rw [List.range_succ]
          have := (List.Perm.cons s.fresh hids)
          refine this.trans ?_
          exact (List.perm_append_singleton _ _).symm
    · left
      rw [if_neg hfit]
      simp only [pure, Except.pure, hcs]
      have hfit' : k.used + n ≤ k.size := by unfold wsub at hfit; omega
      have hw : wadd k.used n = k.used + n := by unfold wadd; omega
      rw [hw]
      have hgood : Good lim ({ k with used := k.used + n } :: ks) := by
        cases ks with
        | nil => exact ⟨hg.1, hg.2.1, hfit'⟩
        | cons d ks =>
          obtain ⟨g1, g2, g3, g4, g5⟩ := hg
          exact ⟨by simp only; omega, hfit', g3, g4, g5⟩
      refine ⟨_, k.id, k.used, rfl, ⟨⟨?_, c2, c3⟩, hoff _ rfl (by omega), h.cur, hbase _, ?_⟩⟩
      · exact Grow.fit c1 hgood
      · have := h.ids
        rw [hcs] at this
        exact this

theorem alloc_wrong {s : Reg} {c : Scope} {sc : List Scope} (h : Inv lim s (c :: sc)) {b n : Nat}
    (hb : b ≠ c.brand) : alloc lim s b n = .error .die ∧ free s b = .error .die ∧
      end' s b = .error .die := by
  have hcur : s.current = sc.length := by have := h.cur; simp at this; exact this
  obtain ⟨a1, a2, a3⟩ := h.arr
  have hbr : s.brands s.current ≠ b := by rw [hcur, a2]; exact hb.symm
  have : assert_brand s b = .error .die := by unfold assert_brand; rw [if_pos hbr]
  refine ⟨?_, this, ?_⟩
  · unfold alloc
    rw [this]
    rfl
  · unfold end'
    simp only [bind, Except.bind]
    by_cases h0 : s.current = 0
    · rw [if_pos h0]
    · rw [if_neg h0]
      simp only [pure, Except.pure]
      rw [this]

theorem begin_ok {s : Reg} {sc : List Scope} (h : Inv lim s sc) (b : Nat) :
    (s.current + 1 < 128 ∧ ∃ s', begin s b = .ok s' ∧ Inv lim s' (⟨b, [], s.chunks, s.size⟩ :: sc)) ∨
    (s.current + 1 = 128 ∨ 128 < s.current + 1) ∧ begin s b = .error .die := by
  unfold begin DEPTH
  by_cases hd : s.current + 1 < 128
  · left
    rw [if_pos hd]
    refine ⟨hd, _, rfl, ⟨?_, ?_, ?_, ?_, h.ids⟩⟩
    · refine ⟨Grow.nil h.chain.grow.good, ?_, h.chain⟩
      unfold size
      cases sc with
      | nil => have := h.cur; simp at this
      | cons c sc =>
        have hcur : s.current = sc.length := by have := h.cur; simp at this; exact this
        rw [hcur]
        exact h.arr.1
    · refine ⟨?_, ?_, ?_⟩
      · simp only [set]
        rw [if_pos h.cur.symm, allBlocks_cons]
        simp only [List.nil_append]
        cases sc with
        | nil => have := h.cur; simp at this
        | cons c sc =>
          have hcur : s.current = sc.length := by have := h.cur; simp at this; exact this
          rw [hcur]
          exact h.arr.1
      · simp only [set]
        rw [if_pos h.cur.symm]
      · refine Arr_congr h.arr (fun i hi => ?_)
        have := h.cur
        simp only [set]
        rw [if_neg (by omega), if_neg (by omega)]
        exact ⟨rfl, rfl⟩
    · simp [h.cur]
    · intro c hc
      cases sc with
      | nil => have := h.cur; simp at this
      | cons d sc =>
        apply h.base c
        rw [List.getLast?_cons] at hc ⊢
        simpa [List.getLast?_cons] using hc
  · right
    rw [if_neg hd]
    exact ⟨by omega, rfl⟩

theorem end_ok (hlim : lim < 2 ^ 62) {s : Reg} {c d : Scope} {sc : List Scope}
    (h : Inv lim s (c :: d :: sc)) :
    ∃ s', end' s c.brand = .ok s' ∧ Inv lim s' (d :: sc) ∧ s'.chunks = c.saved ∧ s'.size = c.size0 ∧
      s'.current = sc.length ∧ s'.fresh = s.fresh := by
  have hcur : s.current = sc.length + 1 := by have := h.cur; simp at this; exact this
  obtain ⟨a1, a2, a3⟩ := h.arr
  obtain ⟨c1, c2, c3⟩ := h.chain
  have hgr := h.chain.grow
  have hsum := hgr.sum
  have hbd := hgr.good.bound.1
  have hinit : sumUsed init.chunks = 0 := rfl
  obtain ⟨P, hp, hid⟩ := c1.pop hlim s.freed
  have hb : assert_brand s c.brand = .ok () := by
    unfold assert_brand
    rw [if_neg]
    rw [hcur]
    simp only [List.length_cons] at a2
    rw [a2]; simp
  unfold end'
  rw [if_neg (by omega)]
  simp only [pure, Except.pure, bind, Except.bind]
  rw [hb]
  simp only
  simp only [List.length_cons] at a1
  obtain ⟨b1, b2, b3⟩ := a3
  rw [hcur, Nat.add_sub_cancel, a1, b1]
  have hfs : wsub (tot (allBlocks (c :: d :: sc))) (tot (allBlocks (d :: sc))) = tot c.blocks := by
    rw [allBlocks_cons c, tot_append] at *
    unfold wsub
    omega
  rw [hfs, hp]
  refine ⟨_, rfl, ⟨c3, ⟨b1, b2, b3⟩, by simp, ?_, ?_⟩, rfl, ?_, rfl, rfl⟩
  · intro c' hc'
    apply h.base c'
    rw [List.getLast?_cons]
    rw [hc']
    rfl
  · have := h.ids
    rw [hid] at this
    refine List.Perm.trans ?_ this
    simp only
    rw [List.append_assoc]
    refine List.Perm.trans (List.perm_append_comm_assoc _ _ _) ?_
    exact List.Perm.append_right _ P.reverse_perm
  · unfold size
    simp only
    rw [b1, c2]

theorem end_base {s : Reg} {c : Scope} (h : Inv lim s [c]) (b : Nat) : end' s b = .error .die := by
  have hcur : s.current = 0 := by have := h.cur; simp at this; exact this
  unfold end'
  rw [if_pos hcur]
  rfl

theorem Inv.start : Inv lim init [⟨0, [], init.chunks, 0⟩] := by
  refine ⟨⟨Grow.nil ⟨rfl, rfl, Nat.zero_le _⟩, rfl, rfl⟩, ⟨rfl, rfl, trivial⟩, rfl, ?_, ?_⟩
  · intro c hc
    simp at hc
    rw [← hc]
  · decide

theorem Run.inv (hlim : lim < 2 ^ 62) {s : Reg} {sc : List Scope} (h : Run lim s sc) : Inv lim s sc := by
  induction h with
  | start => exact Inv.start
  | @begin s s' sc b _ e ih =>
    rcases begin_ok ih b with ⟨_, s2, e2, i2⟩ | ⟨_, e2⟩
    · rw [e] at e2; injection e2 with e2; rw [e2]; exact i2
    · rw [e] at e2; cases e2
  | @alloc s s' c sc b n id off _ hn e ih =>
    by_cases hb : b = c.brand
    · subst hb
      rcases alloc_ok hlim ih hn with ⟨s2, id2, off2, e2, i2⟩ | e2
      · rw [e] at e2
        injection e2 with e2
        injection e2 with e3 e4
        injection e4 with e4 e5
        subst e3 e4 e5
        exact i2
      · rw [e] at e2; cases e2
    · have := (alloc_wrong ih (n := n) hb).1
      rw [e] at this; cases this
  | @close s s' c d sc b _ e ih =>
    by_cases hb : b = c.brand
    · subst hb
      obtain ⟨s2, e2, i2, _⟩ := end_ok hlim ih
      rw [e] at e2; injection e2 with e2; rw [e2]; exact i2
    · have := (alloc_wrong ih (n := 0) hb).2.2
      rw [e] at this; cases this

end Rpp.Reg
