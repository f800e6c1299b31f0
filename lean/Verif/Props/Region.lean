import Verif.Proof.Region
import Verif.Proof.FreeList

/-!
# Properties of regions and of `Free_List`

Histories of regions are `Reg.Run`; `lim` is the largest chunk the system can provide. Every request is
smaller than `2 ^ 63` bytes: `C35_valid_false` shows that this bound is needed.
-/

namespace Rpp.Props
open Rpp Rpp.Spec

section
open Rpp.Reg
variable {lim : Nat} {s : Reg} {sc : List Scope}

/-- **C35, partial** (requests below `2 ^ 63` bytes)**.** Every block of every open scope lies within the
used part of a chunk that has not been given back, and no two of them share a byte. -/
theorem C35_valid_partial (hlim : lim < 2 ^ 62) (h : Run lim s sc) :
    (∀ b ∈ allBlocks sc, b.chunk ∉ s.freed ∧
      ∃ c ∈ s.chunks, c.id = b.chunk ∧ b.off + b.size ≤ c.used ∧ c.used ≤ c.size) ∧
    (allBlocks sc).Pairwise MBlock.Disjoint := by
  have hi := h.inv hlim
  have hg := hi.chain.grow
  obtain ⟨v1, v2, v3⟩ := hg.valid rfl (by decide)
  refine ⟨fun b hb => ?_, v3⟩
  obtain ⟨c, h1, h2, h3⟩ := v2 b hb
  have hnd : (s.chunks.map Chunk.id ++ s.freed).Nodup := hi.ids.nodup_iff.mpr List.nodup_range
  rw [List.nodup_append] at hnd
  refine ⟨fun hm => hnd.2.2 c.id (List.mem_map_of_mem h1) _ hm h2, c, h1, h2, h3, ?_⟩
  have key : ∀ cs : List Chunk, Good lim cs → ∀ c ∈ cs, c.used ≤ c.size := by
    intro cs
    induction cs with
    | nil => intro _ c hc; cases hc
    | cons k ks ih =>
      intro hgd c hc
      rcases List.mem_cons.mp hc with rfl | hc
      · exact (hgd.bound.2 _ _ rfl).2.2
      · cases ks with
        | nil => cases hc
        | cons d ks => exact ih hgd.2.2.2.2 c hc
  exact key _ hg.good c h1

/-- Allocation in the innermost scope succeeds or runs out of memory; it runs out only when the chunk it
needs, the request plus 24 bytes or twice the newest chunk, exceeds `lim`. -/
theorem C35_alloc_progress_partial (hlim : lim < 2 ^ 62) {c : Scope} (h : Run lim s (c :: sc)) {n : Nat}
    (hn : n < 2 ^ 63) : (∃ r, Reg.alloc lim s c.brand n = .ok r) ∨
      Reg.alloc lim s c.brand n = .error .oom ∧ ∃ k ∈ s.chunks.head?, k.size < k.used + n ∧
        (lim < n + 24 ∨ lim < 2 * (k.size + 24)) := by
  rcases alloc_ok hlim (h.inv hlim) hn with ⟨s', id, off, e, _⟩ | e
  · exact Or.inl ⟨_, e⟩
  · refine Or.inr ⟨e, ?_⟩
    have hi := h.inv hlim
    have hg := hi.chain.1.good
    have hbd := hg.bound
    unfold Reg.alloc Reg.assert_brand at e
    cases hcs : s.chunks with
    | nil => rw [hcs] at hg; exact hg.elim
    | cons k ks =>
      obtain ⟨hb1, hb2, hb3⟩ := hbd.2 k ks hcs
      by_cases hbr : s.brands s.current ≠ c.brand
      · rw [if_pos hbr] at e
        cases e
      · rw [if_neg hbr] at e
        simp only [hcs, bind, Except.bind] at e
        refine ⟨k, rfl, ?_⟩
        by_cases hroom : wsub k.size k.used < n
        · rw [if_pos hroom] at e
          have hw : wsub k.size k.used = k.size - k.used := by unfold wsub; omega
          unfold Reg.new_chunk at e
          simp only [hcs] at e
          have ha : wadd n Reg.CHUNK = n + 24 := by unfold wadd Reg.CHUNK; omega
          have hb : wmul 2 (wadd k.size Reg.CHUNK) = 2 * (k.size + 24) := by
            unfold wadd wmul Reg.CHUNK; omega
          rw [ha, hb] at e
          by_cases hl : max (n + 24) (2 * (k.size + 24)) > lim
          · exact ⟨by omega, by omega⟩
          · rw [if_neg hl] at e
            cases e
        · rw [if_neg hroom] at e
          simp [hcs, pure, Except.pure] at e

/-- **C35 is false for huge requests**: `request + sizeof(Chunk)` wraps, so that a request of `2 ^ 64 - 8`
bytes in a region is served from a chunk of 2024 bytes, and the next one starts outside of the chunk. -/
theorem C35_valid_false :
    (do
      let s ← Reg.begin Reg.init 7
      let (s, id, off) ← Reg.alloc (2 ^ 40) s 7 (2 ^ 64 - 8)
      let (s, id', off') ← Reg.alloc (2 ^ 40) s 7 4
      return (id, off, id', off', s.chunks.map Chunk.size) : Res _) =
      .ok (1, 0, 1, 2 ^ 64 - 8, [2024, 1000]) := by
  decide +kernel

/-- In general, for requests of `2 ^ 63` bytes or more in any state: all but the last 24 of these numbers are refused, and for the
last 24 either there is no memory for twice the newest chunk, or the request is served from a new chunk that is
smaller than the request. -/
theorem C35_huge (hlim : lim < 2 ^ 62) {c : Scope} (h : Run lim s (c :: sc)) {n : Nat} (hn : 2 ^ 63 ≤ n) (hn' : n < 2 ^ 64) :
    (n < 2 ^ 64 - 24 → Reg.alloc lim s c.brand n = .error .oom) ∧
    (2 ^ 64 - 24 ≤ n → ∃ k ks, s.chunks = k :: ks ∧ (lim < 2 * (k.size + 24) → Reg.alloc lim s c.brand n = .error .oom) ∧
      (2 * (k.size + 24) ≤ lim → ∃ s' m, Reg.alloc lim s c.brand n = .ok (s', s.fresh, 0) ∧
        s'.chunks = ⟨s.fresh, m, n⟩ :: s.chunks ∧ m < n ∧ m ≤ lim)) :=
  alloc_huge hlim (h.inv hlim) hn hn'

example : (Reg.alloc (2 ^ 40) Reg.init 0 (2 ^ 64 - 24)).map (fun r => r.1.chunks.map (fun c => (c.size, c.used))) =
    .ok [(2024, 2 ^ 64 - 24), (1000, 0)] ∧ (Reg.alloc (2 ^ 40) Reg.init 0 (2 ^ 64 - 25)).map (·.2) = .error .oom := by
  decide +kernel

/-- **C36.** Ending the innermost scope succeeds and puts the chunks, `size()` and `depth()` back to what
they were when it began; the enclosing scopes keep their blocks. -/
theorem C36_end_restores (hlim : lim < 2 ^ 62) {c d : Scope} (h : Run lim s (c :: d :: sc)) :
    ∃ s', Reg.end' s c.brand = .ok s' ∧ s'.chunks = c.saved ∧ s'.size = c.size0 ∧
      s'.depth = sc.length ∧ Run lim s' (d :: sc) := by
  obtain ⟨s', e, _, h2, h3, h4, _⟩ := end_ok hlim (h.inv hlim)
  exact ⟨s', e, h2, h3, h4, Run.close h e⟩

/-- Every chunk ever obtained is either in use or given back, and given back once. -/
theorem C36_chunks (hlim : lim < 2 ^ 62) (h : Run lim s sc) :
    ∀ id, 0 < id → id < s.fresh →
      (id ∈ s.chunks.map Chunk.id ∨ id ∈ s.freed) ∧
      ¬ (id ∈ s.chunks.map Chunk.id ∧ id ∈ s.freed) ∧ s.freed.count id ≤ 1 := by
  have hi := h.inv hlim
  have hnd : (s.chunks.map Chunk.id ++ s.freed).Nodup := hi.ids.nodup_iff.mpr List.nodup_range
  rw [List.nodup_append] at hnd
  intro id h0 h1
  refine ⟨?_, fun hh => hnd.2.2 id hh.1 id hh.2 rfl, List.nodup_iff_count.mp hnd.2.1 id⟩
  exact List.mem_append.mp (hi.ids.mem_iff.mpr (List.mem_range.mpr h1))

/-- When no scope is open and nothing was allocated outside of scopes, only the thread's first chunk is
left, empty, and all others have been given back. -/
theorem C36_all_returned (hlim : lim < 2 ^ 62) {c : Scope} (h : Run lim s [c]) (hc : c.blocks = []) :
    s.chunks = Reg.init.chunks ∧ s.size = 0 ∧ s.depth = 0 ∧ ∀ id, 0 < id → id < s.fresh → id ∈ s.freed := by
  have hi := h.inv hlim
  obtain ⟨c1, c2, c3⟩ := hi.chain
  rw [hc] at c1
  have hcs : s.chunks = Reg.init.chunks := by
    have : c.saved = Reg.init.chunks := c3
    rw [← this]
    generalize s.chunks = k at c1
    generalize c.saved = k' at c1
    cases c1; rfl
  have hcur : s.current = 0 := by have := hi.cur; simp at this; exact this
  refine ⟨hcs, ?_, hcur, fun id h0 h1 => ?_⟩
  · have := hi.arr.1
    unfold Reg.size
    rw [hcur]
    simpa [allBlocks, hc, tot] using this
  · rcases (C36_chunks hlim h id h0 h1).1 with h2 | h2
    · rw [hcs] at h2
      simp [Reg.init] at h2
      omega
    · exact h2

/-- **C37.** Allocating from, freeing to or ending any region but the innermost open one stops the
program; so does ending a region when none is open. -/
theorem C37_wrong_brand (hlim : lim < 2 ^ 62) {c : Scope} (h : Run lim s (c :: sc)) {b : Nat}
    (hb : b ≠ c.brand) (n : Nat) : Reg.alloc lim s b n = .error .die ∧ Reg.free s b = .error .die ∧
      Reg.end' s b = .error .die :=
  alloc_wrong (h.inv hlim) hb

theorem C37_end_outside (hlim : lim < 2 ^ 62) {c : Scope} (h : Run lim s [c]) (b : Nat) :
    Reg.end' s b = .error .die :=
  end_base (h.inv hlim) b

/-- Scopes can be nested 127 deep, and the next one fails its check; `C127_depth` tells how that ends. -/
theorem C37_depth (hlim : lim < 2 ^ 62) (h : Run lim s sc) (b : Nat) :
    (s.depth < 127 → ∃ s', Reg.begin s b = .ok s') ∧ (127 ≤ s.depth → Reg.begin s b = .error .die) := by
  rcases begin_ok (h.inv hlim) b with ⟨h1, s', h2, _⟩ | ⟨h1, h2⟩
  · exact ⟨fun _ => ⟨s', h2⟩, fun hh => by unfold Reg.depth at hh; omega⟩
  · exact ⟨fun hh => by unfold Reg.depth at hh; omega, fun _ => h2⟩

/-- **C121, partial.** The chunks being at multiples of 8, blocks whose sizes are all multiples of `a` are at multiples of `a`,
for `a` up to 8. Full statement: the address returned for any request is suitable for every type of that size. Missing
because false: requests of other sizes before, and types aligned to 16 bytes or more. -/
theorem C121_aligned_partial (hlim : lim < 2 ^ 62) {base : Nat → Nat} (hb : ∀ id, 8 ∣ base id) (h : Run lim s sc)
    {a : Nat} (ha : a ∣ 8) (hs : ∀ b ∈ allBlocks sc, a ∣ b.size) :
    ∀ b ∈ allBlocks sc, a ∣ Reg.address base b.chunk b.off := by
  intro b hm
  have hd := ((h.inv hlim).chain.grow.dvd (a := a) (by simp [Reg.init]) hs).2 b hm
  exact Nat.dvd_add (Nat.dvd_add (Nat.dvd_trans ha (hb _)) (Nat.dvd_trans ha (by decide))) hd

/-- **C121 is false for types aligned to 16 bytes**: the chunks obtained from malloc are at multiples of 16 and begin with
a header of 24 bytes. If all sizes are multiples of 16, as those of such types are, no block in them is at a multiple of
16. -/
theorem C121_never_16 (hlim : lim < 2 ^ 62) {base : Nat → Nat} (h : Run lim s sc) (hs : ∀ b ∈ allBlocks sc, 16 ∣ b.size) :
    ∀ b ∈ allBlocks sc, 16 ∣ base b.chunk → ¬ 16 ∣ Reg.address base b.chunk b.off := by
  intro b hm hb
  have hd := ((h.inv hlim).chain.grow.dvd (a := 16) (by simp [Reg.init]) hs).2 b hm
  unfold Reg.address Reg.CHUNK
  omega

/-- **C121 is false of mixed sizes**: after a block of one byte a block of eight is at an odd address. -/
theorem C121_aligned_false (base : Nat → Nat) (hb : ∀ id, 8 ∣ base id) :
    ∃ s id off, (do
      let s ← Reg.begin Reg.init 7
      let (s, _, _) ← Reg.alloc (2 ^ 40) s 7 1
      Reg.alloc (2 ^ 40) s 7 8 : Res _) = .ok (s, id, off) ∧ Reg.address base id off % 8 = 1 := by
  refine ⟨_, 0, 1, rfl, ?_⟩
  have := hb 0
  unfold Reg.address Reg.CHUNK
  omega

/-- Blocks of 8, 16 and 2000 bytes in two chunks. -/
example : (do
      let s ← Reg.begin Reg.init 7
      let (s, i1, o1) ← Reg.alloc (2 ^ 40) s 7 8
      let (s, i2, o2) ← Reg.alloc (2 ^ 40) s 7 16
      let (_, i3, o3) ← Reg.alloc (2 ^ 40) s 7 2000
      let base := fun id => if id = 0 then 4096 else 8192
      return [Reg.address base i1 o1, Reg.address base i2 o2, Reg.address base i3 o3] : Res _) =
    .ok [4120, 4128, 8216] := by
  decide +kernel

/-- Two nested scopes over several chunks; the outer scope's last block reuses the memory of the inner
scope. -/
example : (do
      let s ← Reg.begin Reg.init 7
      let (s, i1, o1) ← Reg.alloc (2 ^ 40) s 7 900
      let s ← Reg.begin s 8
      let (s, i2, o2) ← Reg.alloc (2 ^ 40) s 8 50
      let (s, i3, o3) ← Reg.alloc (2 ^ 40) s 8 500
      let (s, i4, o4) ← Reg.alloc (2 ^ 40) s 8 5000
      let d := s.depth
      let s ← Reg.end' s 8
      let (s, i5, o5) ← Reg.alloc (2 ^ 40) s 7 60
      let s ← Reg.end' s 7
      return ([(i1, o1), (i2, o2), (i3, o3), (i4, o4), (i5, o5)], d, s.freed, s.chunks, s.size) : Res _) =
    .ok ([(0, 0), (0, 900), (1, 0), (2, 0), (0, 900)], 2, [1, 2], [⟨0, 1000, 0⟩], 0) := by
  decide +kernel

end

section
open Rpp.FList
variable {α : Type} {s : FList α} {l : List (Nat × α)}

/-- **C38.** Objects made and not destroyed have different addresses and their values are intact. `make`
returns an address at which no object lives, leaving all other memory alone. `destroy` of a live object and `clear` succeed;
after `clear` (and so after the destructor) exactly the live objects are still held from `Base`. -/
theorem C38_free_list (h : Run s l) :
    (l.map Prod.fst).Nodup ∧ (∀ p ∈ l, s.mem p.1 = some (.obj p.2)) ∧
    (∀ base v, s.mem base = none → ∃ s' a, FList.make s base v = .ok (s', a) ∧ a ∉ l.map Prod.fst ∧
      s'.mem a = some (.obj v) ∧ ∀ x, x ≠ a → s'.mem x = s.mem x) ∧
    (∀ a ∈ l.map Prod.fst, ∃ s', FList.destroy s a = .ok s') ∧
    (∃ n s', (∀ fuel, n ≤ fuel → FList.clear s fuel = .ok s') ∧
      (∀ a, s'.mem a ≠ none ↔ a ∈ l.map Prod.fst)) := by
  obtain ⟨F, hi⟩ := h.inv
  have hnd := hi.nodup
  rw [List.nodup_append] at hnd
  refine ⟨hnd.2.1, hi.live, fun base v hb => ?_, fun a ha => ?_, ?_⟩
  · obtain ⟨s', a, F', e, h1, h2, h3⟩ := make_ok hi hb v
    exact ⟨s', a, e, h1, h2.live _ List.mem_cons_self, h3⟩
  · obtain ⟨s', e, _⟩ := destroy_ok hi ha
    exact ⟨s', e⟩
  · obtain ⟨s', e, i1, _⟩ := clear_ok hi (F.length + 1) (by omega)
    refine ⟨F.length + 1, s', fun fuel hf => ?_, fun a => ⟨fun ha => ?_, fun ha => ?_⟩⟩
    · obtain ⟨s2, e2, _⟩ := clear_ok hi fuel (by omega)
      have mono : ∀ n (s s' : FList α), FList.clear s n = .ok s' → ∀ m, n ≤ m → FList.clear s m = .ok s' := by
        intro n
        induction n with
        | zero => intro s s' h; cases h
        | succ n ih =>
          intro s s' h m hm
          cases m with
          | zero => omega
          | succ m =>
            unfold FList.clear at h ⊢
            cases hl : s.list with
            | none => rw [hl] at h; exact h
            | some a =>
              rw [hl] at h
              simp only at h ⊢
              cases hc : s.mem a with
              | none => rw [hc] at h; cases h
              | some c =>
                rw [hc] at h
                cases c with
                | obj v => cases h
                | node n => exact ih _ _ h m (by omega)
      exact mono _ _ _ e fuel hf
    · rcases i1.dom a ha with h1 | h1
      · cases h1
      · exact h1
    · obtain ⟨p, hp, rfl⟩ := List.mem_map.mp ha
      rw [i1.live p hp]
      simp

/-- Reuse in last-in first-out order. -/
example : (do
      let (s, a) ← FList.make (FList.empty : FList Nat) 100 1
      let (s, b) ← FList.make s 200 2
      let s ← FList.destroy s a
      let s ← FList.destroy s b
      let (s, c) ← FList.make s 300 3
      let (s, d) ← FList.make s 300 4
      let (s, e) ← FList.make s 300 5
      let s ← FList.destroy s d
      let s ← FList.clear s 5
      return ([a, b, c, d, e], s.returned, s.mem 200, s.mem 100) : Res _) =
    .ok ([100, 200, 200, 100, 300], [100], some (.obj 3), none) := by
  decide +kernel

end

end Rpp.Props
