import Verif.Proof.Room

/-!
# Property C159: containers have room for the capacity they report

Full statement: whatever a program asks of a `Vec`, `Heap` or `Queue`, the container's block has at least `capacity() * sizeof(T)` bytes, its
length is what was asked for, and no access leaves the block. Proved for requests of fewer than 2^64 bytes; false beyond, because the number of
bytes and, in `Vec::extend`, the number of elements are computed in 64 bits without a check.
-/

namespace Rpp.Props

open Rpp.Room Rpp.Room.Spec

/-- A program asking for fewer than 2^64 bytes each time never leaves its block: it runs out of memory, dies popping from an empty
container, or ends with the right length and room for the whole capacity. -/
theorem C159_room_partial (k : Kind) (lim sz : Nat) (hs : 0 < sz) (hs8 : sz < 2 ^ 61) (hlim : lim < 2 ^ 63) (ops : List Op)
    (hsm : Small k sz 0 ops) :
    match run k lim sz C.empty ops with
    | .ok c => lenRun k 0 ops = some c.len ∧ c.len ≤ c.cap ∧ bytes c.data = c.cap * sz
    | .error e => e = .oom ∨ (e = .die ∧ lenRun k 0 ops = none) := by
  rcases run_good (k := k) hs hs8 hlim ops C.empty (good_empty k lim sz) hsm with hr | ⟨hr, hl⟩ | ⟨c, hr, hg, hl⟩
  · rw [hr]
    exact .inl rfl
  · rw [hr]
    exact .inr ⟨rfl, hl⟩
  · rw [hr]
    refine ⟨hl, hg.len, ?_⟩
    rw [hg.data]
    by_cases h0 : c.cap = 0
    · rw [if_pos h0, h0, Nat.zero_mul]
      rfl
    · rw [if_neg h0]
      rfl

/-- Pushing succeeds as long as there is memory for twice what is pushed. -/
theorem C159_pushes (k : Kind) (lim sz m : Nat) (hs : 0 < sz) (hlim : lim < 2 ^ 63) (hm : (2 * m + 8) * sz ≤ lim) :
    ∃ c, run k lim sz C.empty (List.replicate m .push) = .ok c ∧ c.len = m := by
  have hs8 : sz < 2 ^ 61 := by
    have : 8 * sz ≤ (2 * m + 8) * sz := Nat.mul_le_mul_right sz (by omega)
    omega
  obtain ⟨c, hr, hl⟩ := pushes_good (k := k) hs hs8 hlim m C.empty (good_empty k lim sz)
    (by rw [show C.empty.len = 0 from rfl, Nat.zero_add]; exact hm)
  exact ⟨c, hr, by rw [hl]; exact Nat.zero_add m⟩

/-- Constructing with a capacity of 2^64 bytes or more: the block has only the bytes left over, the capacity is reported in full, and exactly as
many pushes as fit in the bytes left over succeed; the next one writes outside. -/
theorem C159_ctor_exact (k : Kind) (lim sz n m : Nat) (hs : 0 < sz) (hn : n < 2 ^ 64) (hbig : 2 ^ 64 ≤ n * sz)
    (hlim : n * sz % 2 ^ 64 ≤ lim) :
    (m ≤ n * sz % 2 ^ 64 / sz → ∃ c, run k lim sz C.empty (.ctor n :: List.replicate m .push) = .ok c ∧
      c.len = m ∧ c.cap = n ∧ bytes c.data = n * sz % 2 ^ 64 ∧ bytes c.data < c.cap * sz) ∧
    (n * sz % 2 ^ 64 / sz < m → run k lim sz C.empty (.ctor n :: List.replicate m .push) = .error .ub) := by
  have hw : n * sz % 2 ^ 64 < n * sz := by omega
  have hstart : ∀ l, run k lim sz C.empty (.ctor n :: l) =
      run k lim sz ⟨if n * sz % 2 ^ 64 = 0 then none else some (n * sz % 2 ^ 64), 0, n, 0⟩ l := by
    intro l
    show (Room.alloc lim sz n >>= _) >>= _ = _
    have ha : Room.alloc lim sz n = .ok (if n * sz % 2 ^ 64 = 0 then none else some (n * sz % 2 ^ 64)) := by
      unfold Room.alloc wmul
      by_cases h0 : n * sz % 2 ^ 64 = 0
      · rw [if_pos h0, if_pos h0]
      · rw [if_neg h0, if_neg (by omega), if_neg h0]
    rw [ha]
    show (touchAll k sz C.empty >>= _) >>= _ = _
    rw [touchAll_ok (good_empty k lim sz)]
    rfl
  constructor
  · intro hm
    refine ⟨⟨if n * sz % 2 ^ 64 = 0 then none else some (n * sz % 2 ^ 64), m, n, m⟩, ?_, ?_⟩
    · rw [hstart, pushes_over hs hn hw m 0 (Nat.zero_le _) (by omega), Nat.zero_add]
    · have hb : bytes (if n * sz % 2 ^ 64 = 0 then none else some (n * sz % 2 ^ 64)) = n * sz % 2 ^ 64 := by
        by_cases h0 : n * sz % 2 ^ 64 = 0
        · rw [if_pos h0, h0]
          rfl
        · rw [if_neg h0]
          rfl
      refine ⟨rfl, rfl, hb, ?_⟩
      dsimp only
      rw [hb]
      exact hw
  · intro hm
    obtain ⟨j, rfl⟩ : ∃ j, m = n * sz % 2 ^ 64 / sz + (1 + j) := ⟨m - n * sz % 2 ^ 64 / sz - 1, by omega⟩
    rw [hstart, ← List.replicate_append_replicate, run_append,
      pushes_over hs hn hw _ 0 (Nat.zero_le _) (by omega), Nat.zero_add]
    show run k lim sz _ (List.replicate (1 + j) .push) = _
    rw [Nat.add_comm 1 j]
    show (push k lim sz _ >>= _) = _
    rw [push_over hs hw]
    rfl

/-- Reserving 2^64 bytes or more in a container filled within the rules: fails for lack of memory, writes outside the new block, or
succeeds with a block of only the bytes left over. A `Vec` whose bytes left over are zero keeps its length and drops its elements. -/
theorem C159_reserve_exact (k : Kind) (lim sz n : Nat) (hs : 0 < sz) (hs8 : sz < 2 ^ 61) (hlim : lim < 2 ^ 63) (ops : List Op)
    (hsm : Small k sz 0 ops) (c : C) (hr : run k lim sz C.empty ops = .ok c) (hbig : 2 ^ 64 ≤ n * sz) :
    run k lim sz C.empty (ops ++ [.reserve n]) =
      if lim < n * sz % 2 ^ 64 then .error .oom
      else if n * sz % 2 ^ 64 < c.len * sz ∧ (k = .vec → n * sz % 2 ^ 64 ≠ 0) then .error .ub
      else .ok ⟨if n * sz % 2 ^ 64 = 0 then none else some (n * sz % 2 ^ 64), c.len, n, c.len⟩ := by
  rcases run_good (k := k) hs hs8 hlim ops C.empty (good_empty k lim sz) hsm with hr' | ⟨hr', _⟩ | ⟨c', hr', hg, _⟩
  · rw [hr] at hr'
    cases hr'
  · rw [hr] at hr'
    cases hr'
  · rw [hr] at hr'
    cases hr'
    have hc : c.cap < n := by
      have h1 := hg.room
      by_cases hlt : c.cap < n
      · exact hlt
      · have := Nat.mul_le_mul_right sz (Nat.le_of_not_lt hlt)
        omega
    rw [run_append, hr, ← reserve_wraps hs hg hc]
    show (reserve k lim sz c n >>= fun c => .ok c) = _
    cases reserve k lim sz c n <;> rfl

/-- Extending a vector by so much that the length passes 2^64 makes it shorter. -/
theorem C159_extend_wraps (lim sz m : Nat) (hs : 0 < sz) (hs8 : sz < 2 ^ 61) (hlim : lim < 2 ^ 63) (ops : List Op)
    (hsm : Small .vec sz 0 ops) (c : C) (hr : run .vec lim sz C.empty ops = .ok c) (hm : m < 2 ^ 64) (hbig : 2 ^ 64 ≤ c.len + m) :
    run .vec lim sz C.empty (ops ++ [.extend m]) = .ok { c with len := c.len + m - 2 ^ 64 } ∧ c.len + m - 2 ^ 64 < c.len := by
  constructor
  rotate_left
  · omega
  rcases run_good (k := .vec) hs hs8 hlim ops C.empty (good_empty .vec lim sz) hsm with hr' | ⟨hr', _⟩ | ⟨c', hr', hg, _⟩
  · rw [hr] at hr'
    cases hr'
  · rw [hr] at hr'
    cases hr'
  · rw [hr] at hr'
    cases hr'
    have hcap : c.cap ≤ c.cap * sz := Nat.le_mul_of_pos_right _ hs
    have h1 := hg.room
    have h2 := hg.len
    have hw : wadd c.len m = c.len + m - 2 ^ 64 := by
      unfold wadd
      omega
    have hlt : c.len + m - 2 ^ 64 < c.len := by omega
    generalize c.len + m - 2 ^ 64 = l at hlt hw ⊢
    exact extend_shrinks hr hg hw hlt

/-- The property is false without the bound: a vector of 16-byte elements constructed with capacity 2^60 + 1 gets one element's room,
and the second push writes outside. -/
theorem C159_false : run .vec 1000 16 C.empty [.ctor (2 ^ 60 + 1), .push] = .ok ⟨some 16, 1, 2 ^ 60 + 1, 1⟩ ∧
    run .vec 1000 16 C.empty [.ctor (2 ^ 60 + 1), .push, .push] = .error .ub := by
  constructor <;> decide +kernel

/-- Non-vacuity: an ordinary program. -/
example : run .queue 1000 8 C.empty [.ctor 2, .push, .push, .pop, .push, .push, .pop] = .ok ⟨some 32, 2, 4, 3⟩ := by decide +kernel

example : run .vec 1000 8 C.empty [.make 3, .extend 2, .push, .resize 1, .pop] = .ok ⟨some 80, 0, 10, 6⟩ := by decide +kernel

/-- Non-vacuity: the hypotheses of `C159_room_partial` hold of it. -/
example : Small .queue 8 0 [.ctor 2, .push] := by
  intro pre o post l hp _
  have hmem : o ∈ [Op.ctor 2, .push] := by
    rw [hp]
    simp
  simp only [List.mem_cons, List.not_mem_nil, or_false] at hmem
  rcases hmem with rfl | rfl
  · show 2 * 8 < 2 ^ 64
    decide
  · show 0 * 8 < 2 ^ 64
    decide

/-- Non-vacuity: elements lost on reserving, and elements written outside. -/
example : run .vec 1000 16 C.empty [.push, .reserve (2 ^ 60)] = .ok ⟨none, 1, 2 ^ 60, 1⟩ ∧
    run .vec 1000 16 C.empty [.push, .reserve (2 ^ 60), .pop] = .error .ub ∧
    run .heap 1000 16 C.empty [.push, .reserve (2 ^ 60)] = .error .ub ∧
    run .queue 1000 16 C.empty [.push, .push, .reserve (2 ^ 60 + 1)] = .error .ub := by
  refine ⟨?_, ?_, ?_, ?_⟩ <;> decide +kernel

example : run .vec 1000 16 C.empty [.push, .push, .extend (2 ^ 64 - 1)] = .ok ⟨some 128, 1, 8, 2⟩ := by decide +kernel

end Rpp.Props
