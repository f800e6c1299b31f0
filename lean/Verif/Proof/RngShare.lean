import Verif.Proof.Rng
import Verif.Spec.RngShare

/-! Streams that run into each other. -/

namespace Rpp.RNG

theorem after_add (j k : Nat) (s : BitVec 64) : after (k + j) s = after j (after k s) := by
  unfold after
  rw [Nat.add_comm, Function.iterate_add_apply]

theorem after_inj (k : Nat) {a b : BitVec 64} (h : after k a = after k b) : a = b := next_bij.1.iterate k h

theorem get_draws (i : Nat) (s : BitVec 64) : (draws (i + 1) s)[i]? = some (after (i + 1) s) :=
  draws_get (i + 1) s i (by omega)

theorem mem_draws {x : BitVec 64} {n : Nat} {s : BitVec 64} : x ∈ draws n s ↔ ∃ i, i < n ∧ x = after (i + 1) s := by
  rw [List.mem_iff_getElem?]
  constructor
  · rintro ⟨i, h⟩
    have hi : i < n := by
      have := (List.getElem?_eq_some_iff.1 h).1
      rwa [draws_length] at this
    rw [draws_get n s i hi] at h
    exact ⟨i, hi, (Option.some.inj h).symm⟩
  · rintro ⟨i, hi, rfl⟩
    exact ⟨i, draws_get n s i hi⟩

theorem draws_drop (n k : Nat) (s : BitVec 64) : (draws (k + n) s).drop k = draws n (after k s) := by
  rw [draws_append, List.drop_append_of_le_length (by rw [draws_length]), List.drop_of_length_le (by rw [draws_length])]
  rfl

theorem add_cancel {a b c : BitVec 64} (h : a + b = a + c) : b = c := by
  have h := congrArg (fun x => x - a) h
  simpa [BitVec.add_sub_cancel, BitVec.add_comm a] using h

theorem foldl_two (x y : BitVec 64) : [x, y].foldl (· + ·) 0 = x + y := by
  simp only [List.foldl_cons, List.foldl_nil]
  exact congrArg (· + y) (BitVec.zero_add x)

theorem hash_eq (x : BitVec 64) : Hash.hashUnsigned x = Hash.squirrel5 x := by
  unfold Hash.hashUnsigned
  exact congrArg Hash.squirrel5 (BitVec.setWidth_eq x)

theorem seedOf_eq (id time : BitVec 64) :
    seedOf id time = Hash.squirrel5 (Hash.squirrel5 (Hash.squirrel5 id) + Hash.squirrel5 (Hash.squirrel5 time)) := by
  unfold seedOf Hash.hashMany
  rw [foldl_two, hash_eq, hash_eq, hash_eq, hash_eq]

end Rpp.RNG
