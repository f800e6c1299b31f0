import Verif.Spec.Stats
import Verif.Proof.Sched
import Mathlib.Tactic.Linarith

namespace Rpp
namespace Stats
open StatsSpec
variable {N : Type} [DecidableEq N]

/-- Bytes that are still to be recorded. -/
def waits (n : N) (b : Blk N) : Bool := b.name = n ∧ b.log ∧ (b.phase = .fresh ∨ b.phase = .counted)

def wait (s : St N) (n : N) : Nat := (s.blks.map fun b => if waits n b then b.size else 0).sum

/-- The block counts in `g_net_allocs`. -/
def isNet (b : Blk N) : Bool := b.phase = .counted ∨ b.phase = .ready ∨ b.phase = .removed

/-- The numbers of a profile against the blocks. -/
structure Num (B : Nat) (p : Prof) (by_ ct wt : Nat) : Prop where
  cur : p.cur = by_
  count : p.allocates = p.frees + ct
  size : p.allocSize = p.freeSize + by_
  pos1 : 0 ≤ p.freeSize
  pos2 : 0 ≤ p.frees
  pos3 : p.frees ≤ p.freeSize
  pos4 : ct ≤ by_
  bound : p.allocSize + wt ≤ B
  high : (by_ : Int) ≤ p.high

structure Inv (B : Nat) (s : St N) : Prop where
  addrs : (s.blks.map (·.addr)).Nodup
  sizes : ∀ b ∈ s.blks, b.size ≠ 0
  warns : s.warns = 0
  set : ∀ n a z, (s.prof n).set a = some z ↔ ∃ b ∈ s.blks, inUse n b ∧ b.addr = a ∧ b.size = z
  num : ∀ n, Num B (s.prof n) (bytes s n) (StatsSpec.count s n) (wait s n)
  net : s.net = ((s.blks.map fun b => if isNet b then 1 else 0).sum : Nat)

theorem toI64_of {x : Int} (h : 0 ≤ x) (h2 : x < 2 ^ 63) : toI64 x = x := by
  unfold toI64
  rw [Int.bmod_eq_of_le] <;> omega

theorem sadd_of {a b : Int} (h : -2 ^ 63 ≤ a + b) (h2 : a + b < 2 ^ 63) : sadd a b = .ok (a + b) := if_pos ⟨h, h2⟩

theorem sum_set_eq {α : Type} (f : α → Nat) {l : List α} {i : Nat} {x : α} (a : α) (h : l[i]? = some x) (he : f a = f x) :
    ((l.set i a).map f).sum = (l.map f).sum := by
  have := sum_set f l i a x h; omega

theorem sum_append {α : Type} (f : α → Nat) (l : List α) (a : α) : ((l ++ [a]).map f).sum = (l.map f).sum + f a := by
  simp

theorem sum_eraseIdx {α : Type} (f : α → Nat) : ∀ (l : List α) (i : Nat) (x : α), l[i]? = some x → f x = 0 →
    ((l.eraseIdx i).map f).sum = (l.map f).sum
  | [], i, x, h, _ => by simp at h
  | y :: l, 0, x, h, hx => by simp at h; subst h; simp [hx]
  | y :: l, i + 1, x, h, hx => by
    simp at h
    simp [sum_eraseIdx f l i x h hx]

theorem addrs_set {s : List (Blk N)} {i : Nat} {b : Blk N} (h : s[i]? = some b) (ph : Phase) :
    (s.set i { b with phase := ph }).map (·.addr) = s.map (·.addr) := by
  rw [List.map_set]
  apply List.ext_getElem?
  intro j
  have : (s.map (·.addr))[i]? = some b.addr := by rw [List.getElem?_map, h]; rfl
  rw [getElem?_set_of this]
  split
  · rename_i c; rw [c, this]
  · rfl

theorem mem_set_iff {l : List (Blk N)} {i : Nat} {b b' c : Blk N} (h : l[i]? = some b) :
    c ∈ l.set i b' ↔ c = b' ∨ ∃ j, j ≠ i ∧ l[j]? = some c := by
  constructor
  · intro hm
    obtain ⟨j, hj⟩ := List.mem_iff_getElem?.mp hm
    rw [getElem?_set_of h] at hj
    split at hj
    · cases hj; exact .inl rfl
    · rename_i ne; exact .inr ⟨j, ne, hj⟩
  · rintro (rfl | ⟨j, ne, hj⟩)
    · exact List.mem_iff_getElem?.mpr ⟨i, by rw [getElem?_set_of h]; simp⟩
    · exact List.mem_iff_getElem?.mpr ⟨j, by rw [getElem?_set_of h, if_neg ne]; exact hj⟩

theorem mem_iff_of {l : List (Blk N)} {i : Nat} {b c : Blk N} (h : l[i]? = some b) :
    c ∈ l ↔ c = b ∨ ∃ j, j ≠ i ∧ l[j]? = some c := by
  constructor
  · intro hm
    obtain ⟨j, hj⟩ := List.mem_iff_getElem?.mp hm
    by_cases c : j = i
    · subst c; rw [h] at hj; cases hj; exact .inl rfl
    · exact .inr ⟨j, c, hj⟩
  · rintro (rfl | ⟨j, _, hj⟩)
    · exact List.mem_iff_getElem?.mpr ⟨i, h⟩
    · exact List.mem_iff_getElem?.mpr ⟨j, hj⟩

theorem addr_inj {s : List (Blk N)} (h : (s.map (·.addr)).Nodup) {i j : Nat} {b c : Blk N} (hi : s[i]? = some b)
    (hj : s[j]? = some c) (e : b.addr = c.addr) : i = j := by
  have h1 : (s.map (·.addr))[i]? = some b.addr := by rw [List.getElem?_map, hi]; rfl
  have h2 : (s.map (·.addr))[j]? = some b.addr := by rw [List.getElem?_map, hj, e]; rfl
  have hlt := (List.getElem?_eq_some_iff.mp h1).1
  exact (List.getElem?_inj hlt h).mp (h1.trans h2.symm)

/-- A step that only changes the phase of a block that is not in use before or after. -/
theorem inv_phase {B : Nat} {s : St N} (h : Inv B s) {i : Nat} {b : Blk N} (hb : s.blks[i]? = some b) (ph : Phase) (net : Int)
    (hu : ∀ n, inUse n { b with phase := ph } = inUse n b) (hw : ∀ n, waits n { b with phase := ph } = waits n b)
    (hn : net + (if isNet b then 1 else 0) = s.net + (if isNet { b with phase := ph } then 1 else 0)) :
    Inv B { s with blks := s.blks.set i { b with phase := ph }, net := net } := by
  have e1 : ∀ n, bytes { s with blks := s.blks.set i { b with phase := ph }, net := net } n = bytes s n := fun n =>
    sum_set_eq (fun b => if inUse n b then b.size else 0) _ hb (by simp only [hu n])
  have e2 : ∀ n, StatsSpec.count { s with blks := s.blks.set i { b with phase := ph }, net := net } n = StatsSpec.count s n := fun n =>
    sum_set_eq (fun b => if inUse n b then 1 else 0) _ hb (by simp only [hu n])
  have e3 : ∀ n, wait { s with blks := s.blks.set i { b with phase := ph }, net := net } n = wait s n := fun n =>
    sum_set_eq (fun b => if waits n b then b.size else 0) _ hb (by simp only [hw n])
  refine ⟨?_, ?_, h.warns, ?_, fun n => by rw [e1, e2, e3]; exact h.num n, ?_⟩
  · dsimp only; rw [addrs_set hb]; exact h.addrs
  · intro c hc
    rcases (mem_set_iff hb).mp hc with rfl | ⟨j, _, hj⟩
    · exact h.sizes b (List.mem_of_getElem? hb)
    · exact h.sizes c (List.mem_of_getElem? hj)
  · intro n a z
    rw [h.set n a z]
    constructor
    · rintro ⟨c, hc, h1, h2, h3⟩
      rcases (mem_iff_of hb).mp hc with rfl | ⟨j, ne, hj⟩
      · exact ⟨{ c with phase := ph }, (mem_set_iff hb).mpr (.inl rfl), by rw [hu]; exact h1, h2, h3⟩
      · exact ⟨c, (mem_set_iff hb).mpr (.inr ⟨j, ne, hj⟩), h1, h2, h3⟩
    · rintro ⟨c, hc, h1, h2, h3⟩
      rcases (mem_set_iff hb).mp hc with rfl | ⟨j, ne, hj⟩
      · exact ⟨b, List.mem_of_getElem? hb, by rw [hu] at h1; exact h1, h2, h3⟩
      · exact ⟨c, List.mem_of_getElem? hj, h1, h2, h3⟩
  · have := sum_set (fun b : Blk N => if isNet b then 1 else 0) s.blks i { b with phase := ph } b hb
    have h1 := h.net
    dsimp only at this ⊢
    split at hn <;> split at hn <;> simp_all <;> omega

theorem setProf_eq (f : N → Prof) (n : N) (p : Prof) : setProf f n p n = p := by simp [setProf]
theorem setProf_ne (f : N → Prof) {n m : N} (p : Prof) (h : m ≠ n) : setProf f n p m = f m := by simp [setProf, h]

theorem inUse_ne {n : N} {b : Blk N} (h : n ≠ b.name) : inUse n b = false := by
  have : ¬ b.name = n := fun c => h c.symm
  unfold inUse; simp [this]
theorem waits_ne {n : N} {b : Blk N} (h : n ≠ b.name) : waits n b = false := by
  have : ¬ b.name = n := fun c => h c.symm
  unfold waits; simp [this]

/-- The sums of other names do not change. -/
theorem sums_ne {s s' : St N} {i : Nat} {b : Blk N} (hb : s.blks[i]? = some b) (ph : Phase)
    (hs : s'.blks = s.blks.set i { b with phase := ph }) {n : N} (hn : n ≠ b.name) :
    bytes s' n = bytes s n ∧ StatsSpec.count s' n = StatsSpec.count s n ∧ wait s' n = wait s n := by
  unfold bytes StatsSpec.count wait
  rw [hs]
  refine ⟨sum_set_eq _ _ hb ?_, sum_set_eq _ _ hb ?_, sum_set_eq _ _ hb ?_⟩
  · rw [inUse_ne hn, inUse_ne (b := { b with phase := ph }) hn]
  · rw [inUse_ne hn, inUse_ne (b := { b with phase := ph }) hn]
  · rw [waits_ne hn, waits_ne (b := { b with phase := ph }) hn]

theorem net_set {l : List (Blk N)} {i : Nat} {b : Blk N} (hb : l[i]? = some b) (ph : Phase)
    (h : isNet { b with phase := ph } = isNet b) :
    ((l.set i { b with phase := ph }).map fun b => if isNet b then 1 else 0).sum = (l.map fun b => if isNet b then 1 else 0).sum :=
  sum_set_eq (fun b : Blk N => if isNet b then 1 else 0) _ hb (by simp only [h])

theorem sizes_set {s : St N} {B : Nat} (h : Inv B s) {i : Nat} {b : Blk N} (hb : s.blks[i]? = some b) (ph : Phase) :
    ∀ c ∈ s.blks.set i { b with phase := ph }, c.size ≠ 0 := by
  intro c hc
  rcases (mem_set_iff hb).mp hc with rfl | ⟨j, _, hj⟩
  · exact h.sizes b (List.mem_of_getElem? hb)
  · exact h.sizes c (List.mem_of_getElem? hj)

theorem record_inv {B : Nat} {s : St N} (hB : B < 2 ^ 63) (h : Inv B s) {i : Nat} {b : Blk N} (hb : s.blks[i]? = some b)
    (hp : b.phase = .counted) (hl : b.log = true) :
    ∃ s', note s i b .ready (noteAlloc (s.prof b.name) b.addr b.size) = .ok s' ∧ Inv B s' ∧
      ∀ n, (s'.prof n).high = max (s.prof n).high (bytes s' n) := by
  have hsz := h.sizes b (List.mem_of_getElem? hb)
  have hu0 : ∀ n, inUse n b = false := fun n => by unfold inUse; simp [hp]
  have hu1 : inUse b.name { b with phase := .ready } = true := by unfold inUse; simp [hl]
  have hw0 : waits b.name b = true := by unfold waits; simp [hl, hp]
  have hw1 : ∀ n, waits n { b with phase := .ready } = false := fun n => by unfold waits; simp
  have s1 := sum_set (fun c : Blk N => if inUse b.name c then c.size else 0) s.blks i { b with phase := .ready } b hb
  have s2 := sum_set (fun c : Blk N => if inUse b.name c then 1 else 0) s.blks i { b with phase := .ready } b hb
  have s3 := sum_set (fun c : Blk N => if waits b.name c then c.size else 0) s.blks i { b with phase := .ready } b hb
  simp only [hu0, hu1, hw0, hw1, if_true, Bool.false_eq_true, if_false] at s1 s2 s3
  have hset : (s.prof b.name).set b.addr = none := by
    cases e : (s.prof b.name).set b.addr with
    | none => rfl
    | some z =>
      obtain ⟨c, hc, h1, h2, _⟩ := (h.set b.name b.addr z).mp e
      obtain ⟨j, hj⟩ := List.mem_iff_getElem?.mp hc
      have := addr_inj h.addrs hj hb h2
      subst this
      rw [hb] at hj; cases hj
      rw [hu0] at h1; cases h1
  obtain ⟨c1, c2, c3, c4, c5, c6, c7, c8, c9⟩ := h.num b.name
  unfold bytes at c1 c3 c7 c9
  unfold StatsSpec.count at c2 c7
  unfold wait at c8
  have ea : sadd (s.prof b.name).allocates 1 = .ok ((s.prof b.name).allocates + 1) := sadd_of (by omega) (by omega)
  have e1 : toI64 ((s.prof b.name).cur + b.size) = (s.prof b.name).cur + b.size := toI64_of (by omega) (by omega)
  have e2 : toI64 ((s.prof b.name).allocSize + b.size) = (s.prof b.name).allocSize + b.size := toI64_of (by omega) (by omega)
  have hna : noteAlloc (s.prof b.name) b.addr b.size = .ok ({ (s.prof b.name) with
      set := fun a => if a = b.addr then some b.size else (s.prof b.name).set a,
      allocSize := (s.prof b.name).allocSize + b.size,
      allocates := (s.prof b.name).allocates + 1,
      cur := (s.prof b.name).cur + b.size,
      high := max (s.prof b.name).high ((s.prof b.name).cur + b.size) }, false) := by
    unfold noteAlloc
    rw [ea, hset]
    dsimp only [Bind.bind, Except.bind]
    rw [e1, e2]; rfl
  rw [hna]
  unfold note; dsimp only
  refine ⟨_, rfl, ⟨?_, sizes_set h hb _, h.warns, ?_, ?_, ?_⟩, ?_⟩
  · dsimp only; rw [addrs_set hb]; exact h.addrs
  · intro n a z
    by_cases hn : n = b.name
    · subst hn
      dsimp only; rw [setProf_eq]; dsimp only
      constructor
      · intro hz
        split at hz
        · rename_i ea; cases hz
          exact ⟨{ b with phase := .ready }, (mem_set_iff hb).mpr (.inl rfl), hu1, ea.symm, rfl⟩
        · obtain ⟨c, hc, h1, h2, h3⟩ := (h.set b.name a z).mp hz
          rcases (mem_iff_of hb).mp hc with rfl | ⟨j, ne, hj⟩
          · rw [hu0] at h1; cases h1
          · exact ⟨c, (mem_set_iff hb).mpr (.inr ⟨j, ne, hj⟩), h1, h2, h3⟩
      · rintro ⟨c, hc, h1, h2, h3⟩
        rcases (mem_set_iff hb).mp hc with rfl | ⟨j, ne, hj⟩
        · rw [if_pos h2.symm]; exact congrArg some h3
        · rw [if_neg (fun e => ne (addr_inj h.addrs hj hb (by rw [h2, e])))]
          exact (h.set b.name a z).mpr ⟨c, List.mem_of_getElem? hj, h1, h2, h3⟩
    · dsimp only; rw [setProf_ne _ _ hn, h.set n a z]
      constructor
      · rintro ⟨c, hc, h1, h2, h3⟩
        rcases (mem_iff_of hb).mp hc with rfl | ⟨j, ne, hj⟩
        · rw [hu0] at h1; cases h1
        · exact ⟨c, (mem_set_iff hb).mpr (.inr ⟨j, ne, hj⟩), h1, h2, h3⟩
      · rintro ⟨c, hc, h1, h2, h3⟩
        rcases (mem_set_iff hb).mp hc with rfl | ⟨j, ne, hj⟩
        · rw [inUse_ne (b := { b with phase := .ready }) hn] at h1; cases h1
        · exact ⟨c, List.mem_of_getElem? hj, h1, h2, h3⟩
  · intro n
    by_cases hn : n = b.name
    · subst hn
      dsimp only; rw [setProf_eq]
      unfold bytes StatsSpec.count wait
      constructor <;> dsimp only <;> omega
    · obtain ⟨r1, r2, r3⟩ := sums_ne (s' := { s with blks := s.blks.set i { b with phase := .ready } }) hb .ready rfl hn
      have := h.num n
      rw [← r1, ← r2, ← r3] at this
      dsimp only; rw [setProf_ne _ _ hn]; exact this
  · dsimp only; rw [h.net, net_set hb _ (by unfold isNet; simp [hp])]
  · intro n
    by_cases hn : n = b.name
    · subst hn
      dsimp only; rw [setProf_eq]
      unfold bytes
      dsimp only; rw [c1]
      congr 1
      omega
    · obtain ⟨r1, r2, r3⟩ := sums_ne (s' := { s with blks := s.blks.set i { b with phase := .ready } }) hb .ready rfl hn
      have := (h.num n).high
      dsimp only; rw [setProf_ne _ _ hn]
      rw [← r1] at this
      exact (max_eq_left this).symm

theorem remove_num {B : Nat} (hB : B < 2 ^ 63) {p : Prof} {x c w x' c' z : Nat} (h : Num B p x c w) (h1 : x' + z = x)
    (h2 : c' + 1 = c) (h4 : c' ≤ x') (hz : z ≠ 0) (set : Nat → Option Nat) :
    toI64 z = z ∧ sadd p.freeSize z = .ok (p.freeSize + z) ∧ sadd p.frees 1 = .ok (p.frees + 1) ∧
    sadd p.cur (-z) = .ok (p.cur + -z) ∧
    Num B { p with set := set, freeSize := p.freeSize + z, frees := p.frees + 1, cur := p.cur + -z } x' c' w := by
  obtain ⟨c1, c2, c3, c4, c5, c6, c7, c8, c9⟩ := h
  generalize p.freeSize = a1 at *
  generalize p.frees = a2 at *
  generalize p.allocSize = a3 at *
  generalize p.allocates = a4 at *
  generalize p.cur = a5 at *
  generalize p.high = a6 at *
  have b1 : (B : Int) < 9223372036854775808 := by omega
  refine ⟨toI64_of (by omega) ?_, sadd_of ?_ ?_, sadd_of ?_ ?_, sadd_of ?_ ?_, ?_⟩
  · show (z : Int) < 9223372036854775808; omega
  · show (-9223372036854775808 : Int) ≤ _; omega
  · show _ < (9223372036854775808 : Int); omega
  · show (-9223372036854775808 : Int) ≤ _; omega
  · show _ < (9223372036854775808 : Int); omega
  · show (-9223372036854775808 : Int) ≤ _; omega
  · show _ < (9223372036854775808 : Int); omega
  · clear hB
    constructor <;> (try dsimp only) <;> omega

theorem remove_inv {B : Nat} {s : St N} (hB : B < 2 ^ 63) (h : Inv B s) {i : Nat} {b : Blk N} (hb : s.blks[i]? = some b)
    (hp : b.phase = .ready) (hl : b.log = true) :
    ∃ s', note s i b .removed (noteFree (s.prof b.name) b.addr) = .ok s' ∧ Inv B s' ∧
      ∀ n, (s'.prof n).high = (s.prof n).high := by
  have hsz := h.sizes b (List.mem_of_getElem? hb)
  have hu0 : inUse b.name b = true := by unfold inUse; simp [hp, hl]
  have hu1 : ∀ n, inUse n { b with phase := .removed } = false := fun n => by unfold inUse; simp
  have hw0 : ∀ n, waits n b = false := fun n => by unfold waits; simp [hp]
  have hw1 : ∀ n, waits n { b with phase := .removed } = false := fun n => by unfold waits; simp
  obtain ⟨t, ht⟩ : ∃ t : St N, t = { s with blks := s.blks.set i { b with phase := .removed } } := ⟨_, rfl⟩
  have s1 : bytes t b.name + b.size = bytes s b.name := by
    have := sum_set (fun c : Blk N => if inUse b.name c then c.size else 0) s.blks i { b with phase := .removed } b hb
    simp only [hu0, hu1, if_true, Bool.false_eq_true, if_false] at this
    rw [ht]; exact this
  have s2 : StatsSpec.count t b.name + 1 = StatsSpec.count s b.name := by
    have := sum_set (fun c : Blk N => if inUse b.name c then 1 else 0) s.blks i { b with phase := .removed } b hb
    simp only [hu0, hu1, if_true, Bool.false_eq_true, if_false] at this
    rw [ht]; exact this
  have s3 : wait t b.name = wait s b.name := by
    have := sum_set (fun c : Blk N => if waits b.name c then c.size else 0) s.blks i { b with phase := .removed } b hb
    simp only [hw0, hw1, Bool.false_eq_true, if_false] at this
    rw [ht]; exact this
  have s4 : StatsSpec.count t b.name ≤ bytes t b.name := by
    have := sizes_set h hb .removed
    rw [ht]
    unfold bytes StatsSpec.count
    dsimp only
    generalize s.blks.set i { b with phase := .removed } = l at this
    induction l with
    | nil => simp
    | cons c l ih =>
      have h1 := ih (fun d hd => this d (.tail _ hd))
      have h2 := this c (.head _)
      simp only [List.map_cons, List.sum_cons]
      split <;> omega
  have hset : (s.prof b.name).set b.addr = some b.size :=
    (h.set b.name b.addr b.size).mpr ⟨b, List.mem_of_getElem? hb, hu0, rfl, rfl⟩
  obtain ⟨e0, e1, e2, e3, e7⟩ := remove_num hB (h.num b.name) s1 s2 s4 hsz
    (fun a => if a = b.addr then none else (s.prof b.name).set a)
  have hna : noteFree (s.prof b.name) b.addr = .ok ({ (s.prof b.name) with
      set := fun a => if a = b.addr then none else (s.prof b.name).set a,
      freeSize := (s.prof b.name).freeSize + b.size,
      frees := (s.prof b.name).frees + 1,
      cur := (s.prof b.name).cur + -b.size }, false) := by
    unfold noteFree
    rw [hset]
    dsimp only [Bind.bind, Except.bind]
    rw [e0, e1]
    dsimp only
    rw [e2]
    dsimp only
    rw [e3]
  rw [hna]
  unfold note; dsimp only
  refine ⟨_, rfl, ⟨?_, sizes_set h hb _, h.warns, ?_, ?_, ?_⟩, ?_⟩
  · dsimp only; rw [addrs_set hb]; exact h.addrs
  · intro n a z
    by_cases hn : n = b.name
    · subst hn
      dsimp only; rw [setProf_eq]; dsimp only
      constructor
      · intro hz
        split at hz
        · cases hz
        · rename_i hne
          obtain ⟨c, hc, h1, h2, h3⟩ := (h.set b.name a z).mp hz
          rcases (mem_iff_of hb).mp hc with rfl | ⟨j, ne, hj⟩
          · exact absurd h2.symm hne
          · exact ⟨c, (mem_set_iff hb).mpr (.inr ⟨j, ne, hj⟩), h1, h2, h3⟩
      · rintro ⟨c, hc, h1, h2, h3⟩
        rcases (mem_set_iff hb).mp hc with rfl | ⟨j, ne, hj⟩
        · rw [hu1] at h1; cases h1
        · rw [if_neg (fun e => ne (addr_inj h.addrs hj hb (by rw [h2, e])))]
          exact (h.set b.name a z).mpr ⟨c, List.mem_of_getElem? hj, h1, h2, h3⟩
    · dsimp only; rw [setProf_ne _ _ hn, h.set n a z]
      constructor
      · rintro ⟨c, hc, h1, h2, h3⟩
        rcases (mem_iff_of hb).mp hc with rfl | ⟨j, ne, hj⟩
        · rw [inUse_ne hn] at h1; cases h1
        · exact ⟨c, (mem_set_iff hb).mpr (.inr ⟨j, ne, hj⟩), h1, h2, h3⟩
      · rintro ⟨c, hc, h1, h2, h3⟩
        rcases (mem_set_iff hb).mp hc with rfl | ⟨j, ne, hj⟩
        · rw [hu1] at h1; cases h1
        · exact ⟨c, List.mem_of_getElem? hj, h1, h2, h3⟩
  · intro n
    by_cases hn : n = b.name
    · subst hn
      dsimp only; rw [setProf_eq]
      have e4 : ∀ p w, bytes { s with blks := s.blks.set i { b with phase := .removed }, prof := p, warns := w } b.name = bytes t b.name :=
        fun p w => by rw [ht]; rfl
      have e5 : ∀ p w, StatsSpec.count { s with blks := s.blks.set i { b with phase := .removed }, prof := p, warns := w } b.name = StatsSpec.count t b.name :=
        fun p w => by rw [ht]; rfl
      have e6 : ∀ p w, wait { s with blks := s.blks.set i { b with phase := .removed }, prof := p, warns := w } b.name = wait t b.name :=
        fun p w => by rw [ht]; rfl
      rw [e4, e5, e6]
      rw [s3]; exact e7
    · obtain ⟨r1, r2, r3⟩ := sums_ne (s' := { s with blks := s.blks.set i { b with phase := .removed } }) hb .removed rfl hn
      have := h.num n
      rw [← r1, ← r2, ← r3] at this
      dsimp only; rw [setProf_ne _ _ hn]; exact this
  · dsimp only; rw [h.net, net_set hb _ (by unfold isNet; simp [hp])]
  · intro n
    by_cases hn : n = b.name
    · subst hn
      dsimp only; rw [setProf_eq]
    · dsimp only; rw [setProf_ne _ _ hn]

/-- What a step asks for. -/
def asks : Ev N → Nat
  | .malloc _ size _ _ => size
  | _ => 0

theorem Inv.mono {B B' : Nat} {s : St N} (h : Inv B s) (hB : B ≤ B') : Inv B' s :=
  { h with num := fun n => { h.num n with bound := by have := (h.num n).bound; omega } }

theorem step_inv {B : Nat} {s : St N} (e : Ev N) (hB : B + asks e < 2 ^ 63) (h : Inv B s) :
    ∃ s', step s e = .ok s' ∧ Inv (B + asks e) s' ∧
      ∀ n, (s'.prof n).high = max (s.prof n).high (bytes s' n) := by
  have same : ∀ s' : St N, Inv (B + asks e) s' → (∀ n, (s'.prof n).high = (s.prof n).high) →
      ∀ n, (s'.prof n).high = max (s.prof n).high (bytes s' n) := by
    intro s' hs hh n
    have := (hs.num n).high
    rw [hh n] at this ⊢
    exact (max_eq_left this).symm
  unfold step
  cases e with
  | malloc addr size name log =>
    dsimp only
    split
    · rename_i hc
      obtain ⟨_, hz, hlt, hfr⟩ := hc
      have hi : Inv (B + asks (.malloc addr size name log : Ev N)) { s with blks := s.blks ++ [⟨addr, size, name, log, .fresh⟩] } := by
        refine ⟨?_, ?_, h.warns, ?_, ?_, ?_⟩
        · dsimp only
          rw [List.map_append]
          refine List.nodup_append.mpr ⟨h.addrs, by simp, ?_⟩
          intro a ha c hc hac
          simp at hc; subst hc; subst hac
          obtain ⟨d, hd, hd2⟩ := List.mem_map.mp ha
          exact hfr d hd hd2
        · intro c hc
          rcases List.mem_append.mp hc with hc | hc
          · exact h.sizes c hc
          · simp at hc; rw [hc]; exact hz
        · intro n a z
          dsimp only
          rw [h.set n a z]
          constructor
          · rintro ⟨c, hc, h1⟩; exact ⟨c, List.mem_append_left _ hc, h1⟩
          · rintro ⟨c, hc, h1, h2⟩
            rcases List.mem_append.mp hc with hc | hc
            · exact ⟨c, hc, h1, h2⟩
            · simp at hc; rw [hc] at h1; simp [inUse] at h1
        · intro n
          have h1 := h.num n
          have e1 : bytes { s with blks := s.blks ++ [⟨addr, size, name, log, .fresh⟩] } n = bytes s n := by
            unfold bytes; dsimp only; rw [sum_append]; simp [inUse]
          have e2 : StatsSpec.count { s with blks := s.blks ++ [⟨addr, size, name, log, .fresh⟩] } n = StatsSpec.count s n := by
            unfold StatsSpec.count; dsimp only; rw [sum_append]; simp [inUse]
          have e3 : wait { s with blks := s.blks ++ [⟨addr, size, name, log, .fresh⟩] } n ≤ wait s n + size := by
            unfold wait; dsimp only; rw [sum_append]
            split
            · exact Nat.le_refl _
            · omega
          rw [e1, e2]
          refine { h1 with bound := ?_ }
          have := h1.bound
          unfold asks
          dsimp only
          omega
        · dsimp only; rw [sum_append]
          simp [isNet, h.net]
      exact ⟨_, rfl, hi, same _ hi (fun _ => rfl)⟩
    · exact ⟨s, rfl, h.mono (Nat.le_add_right _ _), same _ (h.mono (Nat.le_add_right _ _)) (fun _ => rfl)⟩
  | next i =>
    have hB : B < 2 ^ 63 := hB
    dsimp only
    cases hb : s.blks[i]? with
    | none => exact ⟨s, rfl, h, same _ h (fun _ => rfl)⟩
    | some b =>
      dsimp only
      cases hp : b.phase with
      | fresh =>
        have := inv_phase h hb .counted (s.net + 1) (by intro n; unfold inUse; simp [hp]) (by intro n; unfold waits; simp [hp])
          (by unfold isNet; simp [hp])
        exact ⟨_, rfl, this, same _ this (fun _ => rfl)⟩
      | counted =>
        dsimp only
        by_cases hl : b.log = true
        · rw [if_pos hl]
          obtain ⟨s', h1, h2, h3⟩ := record_inv hB h hb hp hl
          exact ⟨s', h1, h2, h3⟩
        · rw [if_neg hl]
          have := inv_phase h hb .ready s.net (by intro n; unfold inUse; simp [hl]) (by intro n; unfold waits; simp [hl])
            (by unfold isNet; simp [hp])
          exact ⟨_, rfl, this, same _ this (fun _ => rfl)⟩
      | ready => exact ⟨s, rfl, h, same _ h (fun _ => rfl)⟩
      | removed =>
        have := inv_phase h hb .uncounted (s.net - 1) (by intro n; unfold inUse; simp [hp]) (by intro n; unfold waits; simp [hp])
          (by unfold isNet; simp [hp])
        exact ⟨_, rfl, this, same _ this (fun _ => rfl)⟩
      | uncounted =>
        have hi : Inv B { s with blks := s.blks.eraseIdx i } := by
          have hu : ∀ n, inUse n b = false := fun n => by unfold inUse; simp [hp]
          have hw : ∀ n, waits n b = false := fun n => by unfold waits; simp [hp]
          have hsub : ∀ c ∈ s.blks.eraseIdx i, c ∈ s.blks := fun c hc => List.mem_of_mem_eraseIdx hc
          refine ⟨?_, fun c hc => h.sizes c (hsub c hc), h.warns, ?_, ?_, ?_⟩
          · dsimp only
            exact ((List.eraseIdx_sublist _ _).map _).nodup h.addrs
          · intro n a z
            dsimp only
            rw [h.set n a z]
            constructor
            · rintro ⟨c, hc, h1, h2⟩
              rcases (mem_iff_of hb).mp hc with rfl | ⟨j, ne, hj⟩
              · rw [hu] at h1; cases h1
              · exact ⟨c, List.mem_eraseIdx_iff_getElem?.mpr ⟨j, ne, hj⟩, h1, h2⟩
            · rintro ⟨c, hc, h1, h2⟩
              exact ⟨c, hsub c hc, h1, h2⟩
          · intro n
            have e1 : bytes { s with blks := s.blks.eraseIdx i } n = bytes s n :=
              sum_eraseIdx _ _ _ _ hb (by simp only [hu]; rfl)
            have e2 : StatsSpec.count { s with blks := s.blks.eraseIdx i } n = StatsSpec.count s n :=
              sum_eraseIdx _ _ _ _ hb (by simp only [hu]; rfl)
            have e3 : wait { s with blks := s.blks.eraseIdx i } n = wait s n :=
              sum_eraseIdx _ _ _ _ hb (by simp only [hw]; rfl)
            rw [e1, e2, e3]; exact h.num n
          · dsimp only
            rw [h.net, sum_eraseIdx _ _ _ _ hb (by simp [isNet, hp])]
        exact ⟨_, rfl, hi, same _ hi (fun _ => rfl)⟩
  | free i =>
    have hB : B < 2 ^ 63 := hB
    dsimp only
    cases hb : s.blks[i]? with
    | none => exact ⟨s, rfl, h, same _ h (fun _ => rfl)⟩
    | some b =>
      dsimp only
      by_cases hp : b.phase = .ready
      · rw [if_pos hp]
        by_cases hl : b.log = true
        · rw [if_pos hl]
          obtain ⟨s', h1, h2, h3⟩ := remove_inv hB h hb hp hl
          exact ⟨s', h1, h2, same _ h2 h3⟩
        · rw [if_neg hl]
          have := inv_phase h hb .removed s.net (by intro n; unfold inUse; simp [hl]) (by intro n; unfold waits; simp [hl])
            (by unfold isNet; simp [hp])
          exact ⟨_, rfl, this, same _ this (fun _ => rfl)⟩
      · rw [if_neg hp]
        exact ⟨s, rfl, h, same _ h (fun _ => rfl)⟩

theorem asked_cons (e : Ev N) (r : List (Ev N)) : asked (e :: r) = asks e + asked r := by
  cases e <;> simp [asked, asks]

theorem init_inv : Inv 0 ({} : St N) := by
  refine ⟨by simp, by simp, rfl, by simp, fun n => ?_, by simp⟩
  constructor <;> simp [bytes, StatsSpec.count, wait]

theorem run_inv : ∀ (es : List (Ev N)) (B : Nat) (s : St N), B + asked es < 2 ^ 63 → Inv B s →
    ∃ s', runAll step s es = .ok s' ∧ Inv (B + asked es) s' ∧ ∀ n,
      (∀ k t, runAll step s (es.take k) = .ok t → (bytes t n : Int) ≤ (s'.prof n).high) ∧
      (s.prof n).high ≤ (s'.prof n).high ∧
      ((s'.prof n).high = (s.prof n).high ∨
        ∃ k t, runAll step s (es.take k) = .ok t ∧ (s'.prof n).high = bytes t n)
  | [], B, s, _, h => by
    refine ⟨s, rfl, h, fun n => ⟨fun k t ht => ?_, le_refl _, .inl rfl⟩⟩
    simp [runAll] at ht
    subst ht; exact (h.num n).high
  | e :: r, B, s, hB, h => by
    rw [asked_cons] at hB ⊢
    obtain ⟨s1, h1, h2, h3⟩ := step_inv e (by omega) h
    obtain ⟨s2, h4, h5, h6⟩ := run_inv r (B + asks e) s1 (by omega) h2
    have hrun : ∀ l, runAll step s (e :: l) = runAll step s1 l := by
      intro l; conv => lhs; unfold runAll
      rw [h1]
    refine ⟨s2, by rw [hrun]; exact h4, by rw [← Nat.add_assoc]; exact h5, fun n => ?_⟩
    obtain ⟨g1, g2, g3⟩ := h6 n
    have hle : (s.prof n).high ≤ (s1.prof n).high := by rw [h3 n]; exact le_max_left _ _
    refine ⟨fun k t ht => ?_, le_trans hle g2, ?_⟩
    · cases k with
      | zero =>
        simp [runAll] at ht; subst ht
        exact le_trans (h.num n).high (le_trans hle g2)
      | succ k =>
        rw [List.take_succ_cons, hrun] at ht
        exact g1 k t ht
    · rcases g3 with g3 | ⟨k, t, hk, ht⟩
      · rw [g3, h3 n]
        rcases le_total (bytes s1 n : Int) (s.prof n).high with c | c
        · left; exact max_eq_left c
        · right
          exact ⟨1, s1, by rw [List.take_succ_cons, hrun]; simp [runAll], max_eq_right c⟩
      · right
        exact ⟨k + 1, t, by rw [List.take_succ_cons, hrun]; exact hk, ht⟩

end Stats
end Rpp
