import Verif.Proof.RangeCost

/-!
# Properties of the search of `rpp::Range_Allocator`

As in `Props/Range`: `B` buckets, fewer than 256, a heap of `cap` positions, the ranges `g` in use, and requests with
`size + align` at most `2 ^ 64`.
-/

namespace Rpp.Props
open Rpp Rpp.Spec Rpp.RA

variable {B bias cap : Nat} {s : RA} {g : List Grant} {size align : Nat}

/-- **C167.** A range is taken from the front of a gap, with nothing but padding before it, and no gap of a lower size class has room for it. -/
theorem C167_class (hB : 0 < B ∧ B < 256) (h0 : 0 < cap) (hcap : cap < 2 ^ 64) (h : Run B bias cap s g)
    (hs : 0 < size) (ha : 0 < align) (hsz : size + align ≤ 2 ^ 64) {s' : RA} {b : Nat} {blk : RBlock}
    (e : allocate B bias s size align = .ok (s', some b)) (hb : s'.mem b = some blk) :
    ∃ G, IsGaps cap g G ∧ ∃ p ∈ G, HasRoom size align p ∧ p.1 ≤ blk.offset ∧ blk.offset < p.1 + align ∧
      blk.offset + size ≤ p.1 + p.2 ∧
      ∀ q ∈ G, HasRoom size align q → sizeClass B bias p.2 ≤ sizeClass B bias q.2 := by
  obtain ⟨⟨L, hi⟩, hl⟩ := h.inv hB hcap h0
  obtain ⟨k, k1, k2, k3⟩ := take_least hB hcap hi hs ha hsz e
  refine ⟨_, gaps_ok hi hl, (k.start, k.size),
    mem_gapsOf.mpr ⟨b, (hi.main.dom b).mp ⟨_, Mv_of k1⟩, mainOf k, Mv_of k1, k2, rfl⟩, ?_⟩
  rcases allocate_ok hB hcap hi hs ha hsz with ⟨s2, L2, b2, blk2, pad, e2, i2, m2, f2, fit, lv⟩ | ⟨e2, _⟩
  · rw [e] at e2
    injection e2 with e2
    simp only [Prod.mk.injEq, Option.some.injEq] at e2
    obtain ⟨rfl, rfl⟩ := e2
    rw [k1] at m2
    cases m2
    have hlb := lv b
    rw [if_pos rfl] at hlb
    obtain ⟨blk', p1, p2, p3, p4, p5⟩ := live_mem hlb
    rw [hb] at p1
    cases p1
    obtain ⟨f1, f2, f3⟩ := fit
    have hbd := hi.bound _ _ k1
    refine ⟨⟨k.start + pad, f1, by simp, by dsimp only; omega⟩, by dsimp only; omega, by dsimp only; omega, by dsimp only; omega, fun q hq hr => ?_⟩
    obtain ⟨a, _, mb, a2, a3, rfl⟩ := mem_gapsOf.mp hq
    obtain ⟨qb, c1, c2⟩ := hi.st.get a2
    subst c2
    exact k3 a qb c1 a3 hr
  · rw [e] at e2; cases e2

/-- Less than twice as much is cut into as in the tightest choice: unless the gap with room is shorter than `2 ^ bias` or of the last
class, the gap the range is taken from is less than twice as long as any gap with room. -/
theorem C167_twice (hB : 0 < B ∧ B < 256) (h0 : 0 < cap) (hcap : cap < 2 ^ 64) (h : Run B bias cap s g)
    (hs : 0 < size) (ha : 0 < align) (hsz : size + align ≤ 2 ^ 64) {s' : RA} {b : Nat} {blk : RBlock}
    (e : allocate B bias s size align = .ok (s', some b)) (hb : s'.mem b = some blk) :
    ∃ G, IsGaps cap g G ∧ ∃ p ∈ G, p.1 ≤ blk.offset ∧ blk.offset + size ≤ p.1 + p.2 ∧
      ∀ q ∈ G, HasRoom size align q → 2 ^ bias ≤ q.2 → sizeClass B bias q.2 < B - 1 → p.2 < 2 * q.2 := by
  obtain ⟨G, hG, p, hp, p0, p1, _, p3, p4⟩ := C167_class hB h0 hcap h hs ha hsz e hb
  refine ⟨G, hG, p, hp, p1, p3, fun q hq hr h1 h2 => ?_⟩
  have hc := p4 q hq hr
  have hq0 := (hG.inside q hq).1
  have hp0 := (hG.inside p hp).1
  have hbias : bias ≤ Nat.log2 q.2 := (Nat.le_log2 (by omega)).mpr h1
  unfold sizeClass at hc h2
  have h3 : Nat.log2 p.2 ≤ Nat.log2 q.2 := by omega
  have h4 : p.2 < 2 ^ (Nat.log2 q.2 + 1) := (Nat.log2_lt (by omega)).mp (by omega)
  have h5 : 2 ^ Nat.log2 q.2 ≤ q.2 := Nat.log2_self_le (by omega)
  rw [Nat.pow_succ] at h4
  omega

/-- The search looks at no more gaps than there are of the classes from that of `size` to that of `size + align - 1`, and one more: given that
many turns it has ended, and what it has found is what `allocate` takes. -/
theorem C167_turns (hB : 0 < B ∧ B < 256) (h0 : 0 < cap) (hcap : cap < 2 ^ 64) (h : Run B bias cap s g)
    (hs : 0 < size) (ha : 0 < align) (hsz : size + align ≤ 2 ^ 64) :
    ∃ G, IsGaps cap g G ∧ ∃ x,
      Within (ofClasses B bias (sizeClass B bias size) (sizeClass B bias (size + (align - 1))) G + 1)
        (lookIn B bias s size align) x ∧
      ∃ s', allocate B bias s size align = .ok (s', x.map Prod.fst) := by
  obtain ⟨⟨L, hi⟩, hl⟩ := h.inv hB hcap h0
  obtain ⟨x, hx⟩ := look_within hB hcap hi hs ha hsz
  refine ⟨_, gaps_ok hi hl, x, hx, ?_⟩
  have hok : ∃ s' o, allocate B bias s size align = .ok (s', o) := by
    rcases allocate_ok hB hcap hi hs ha hsz with ⟨s2, L2, b2, blk2, pad, e2, _⟩ | ⟨e2, _⟩
    · exact ⟨_, _, e2⟩
    · exact ⟨_, _, e2⟩
  obtain ⟨s', o, e⟩ := hok
  refine ⟨s', ?_⟩
  obtain ⟨y, hy, rfl⟩ := allocate_look e
  have h1 := hx (max (s.fresh + 1) (ofClasses B bias (sizeClass B bias size) (sizeClass B bias (size + (align - 1)))
    (gapsOf (Mv s) L) + 1)) (by omega)
  obtain ⟨t, et, _⟩ := look_list hB hcap hi hs ha hsz
  rw [et _ (by omega)] at h1 hy
  rw [scan_more (by omega) hy] at h1
  cases h1
  exact e

/-! ### Concrete histories -/

/-- Two gaps in front of the rest of the heap: `x` positions from 0, and `y` positions from `x + 1`, released in this order. -/
private def holes (x y : Nat) : Res RA := do
  let s ← make_heap 24 8 1024
  let (s, a) ← allocate 24 8 s x 1
  let (s, _) ← allocate 24 8 s 1 1
  let (s, b) ← allocate 24 8 s y 1
  let (s, _) ← allocate 24 8 s 1 1
  let s ← RA.free 24 8 s (a.getD 99)
  RA.free 24 8 s (b.getD 99)

/-- The offset of the range that a request gets, and the numbers of turns below 6 with which the search ends. -/
private def request (s : Res RA) (size align : Nat) : Res (Option Nat × List Nat) := do
  let s ← s
  let (s', r) ← allocate 24 8 s size align
  return (r.bind fun b => (s'.mem b).map RBlock.offset,
    (List.range 6).filter fun n => (lookIn 24 8 s size align n).isOk)

/-- The bound is exact: the gaps of 20 and 10 positions are of the class of the request for 30, the rest of the heap is not, and three gaps are looked
at. The request for 512 looks at one, the large alignment of the last makes the search look at all three. -/
example : request (holes 20 10) 30 1 = .ok (some 32, [3, 4, 5]) ∧ request (holes 20 10) 512 1 = .ok (some 32, [1, 2, 3, 4, 5]) ∧
    request (holes 20 600) 200 300 = .ok (some 300, [3, 4, 5]) ∧
    ofClasses 24 8 (sizeClass 24 8 30) (sizeClass 24 8 30) [(0, 20), (21, 10), (32, 992)] = 2 ∧
    ofClasses 24 8 (sizeClass 24 8 512) (sizeClass 24 8 512) [(0, 20), (21, 10), (32, 992)] = 1 := by decide +kernel

/-- Within a class it is the gap released last that is taken, not the one that fits best: there is a gap of 10 positions at 0, but a request for 10
cuts the gap of 20 at 11. -/
theorem C167_not_best : request (holes 10 20) 10 1 = .ok (some 11, [1, 2, 3, 4, 5]) ∧
    request (holes 20 10) 10 1 = .ok (some 21, [1, 2, 3, 4, 5]) := by decide +kernel

end Rpp.Props
