import Verif.Proof.RngShare
import Verif.Props.Rng

/-!
# Property C182: streams of random numbers keep apart

Full statement: streams with different seeds, or made by different threads or at different times, have no numbers in common. False: all streams
walk the same cycles, so a stream whose seed occurs in another one repeats it from there on, and different threads can be given the same seed.
Proved: when streams meet, and that they otherwise stay apart.
-/

namespace Rpp.Props

open Rpp Rpp.RNG

/-- **C182, partial.** Two streams have one of their first `n` numbers in common exactly if one of the seeds is the state of the other stream after
fewer than `n` draws. Missing: that this does not happen; see `C182_shift_false`. -/
theorem C182_share_partial (n : Nat) (hn : 0 < n) (a b : BitVec 64) :
    Share n a b ↔ ∃ k < n, b = after k a ∨ a = after k b := by
  constructor
  · rintro ⟨x, ha, hb⟩
    obtain ⟨i, hi, ea⟩ := mem_draws.1 ha
    obtain ⟨j, hj, eb⟩ := mem_draws.1 hb
    by_cases h : i ≤ j
    · refine ⟨j - i, by omega, .inr ?_⟩
      have e : after (i + 1) a = after (i + 1) (after (j - i) b) := by
        rw [← after_add, show j - i + (i + 1) = j + 1 by omega, ← ea, ← eb]
      exact after_inj _ e
    · refine ⟨i - j, by omega, .inl ?_⟩
      have e : after (j + 1) b = after (j + 1) (after (i - j) a) := by
        rw [← after_add, show i - j + (j + 1) = i + 1 by omega, ← ea, ← eb]
      exact after_inj _ e
  · rintro ⟨k, hk, rfl | rfl⟩
    · refine ⟨after (k + 1) a, mem_draws.2 ⟨k, hk, rfl⟩, mem_draws.2 ⟨0, hn, ?_⟩⟩
      rw [after_add]
    · refine ⟨after (k + 1) b, mem_draws.2 ⟨0, hn, ?_⟩, mem_draws.2 ⟨k, hk, rfl⟩⟩
      rw [after_add]

/-- **C182, partial.** From a common number on the streams are the same: one number tells all that follow. Missing: as above. -/
theorem C182_merge_partial (a b : BitVec 64) (i j n : Nat) (x : BitVec 64) (ha : (draws (i + 1) a)[i]? = some x)
    (hb : (draws (j + 1) b)[j]? = some x) : (draws (i + 1 + n) a).drop (i + 1) = (draws (j + 1 + n) b).drop (j + 1) := by
  rw [get_draws] at ha hb
  rw [draws_drop, draws_drop, Option.some.inj ha, Option.some.inj hb]

/-- **The property is false:** a stream whose seed is any number drawn from another stream gives the numbers that follow there; with `Stream(hash(s))` and `Stream(s)` all
numbers of the first occur in the second. -/
theorem C182_shift_false (s : BitVec 64) (n : Nat) :
    draws n (Hash.hashUnsigned s) = (draws (n + 1) s).tail ∧ ∀ k, draws n (after k s) = (draws (k + n) s).drop k := by
  refine ⟨?_, fun k => (draws_drop n k s).symm⟩
  have e : Hash.hashUnsigned s = next s := by
    unfold Hash.hashUnsigned next
    rw [BitVec.setWidth_eq]
  rw [e]
  rfl

/-- **The property is false of the seeds made from thread and time:** whatever two threads, for every time of the first there is exactly one time of the
second that gives it the same seed, and a thread `a` at time `b` has the seed of thread `b` at time `a`. -/
theorem C182_seed_false (a b t : BitVec 64) : (∃ u, seedOf b u = seedOf a t ∧ ∀ u', seedOf b u' = seedOf a t → u' = u) ∧ seedOf a b = seedOf b a := by
  have gen : ∀ f : BitVec 64 → BitVec 64, Function.Bijective f → ∃ u, f (f (f b) + f (f u)) = f (f (f a) + f (f t)) ∧
      ∀ u', f (f (f b) + f (f u')) = f (f (f a) + f (f t)) → u' = u := by
    intro f hf
    obtain ⟨v, hv⟩ := hf.2 (f (f a) + f (f t) - f (f b))
    obtain ⟨u, hu⟩ := hf.2 v
    have e : f (f (f b) + f (f u)) = f (f (f a) + f (f t)) := by
      rw [hu, hv, BitVec.add_comm, BitVec.sub_add_cancel]
    refine ⟨u, e, fun u' h => ?_⟩
    rw [← e] at h
    exact hf.1 (hf.1 (RNG.add_cancel (hf.1 h)))
  refine ⟨?_, (C146_seed a b t).2⟩
  obtain ⟨u, h1, h2⟩ := gen Hash.squirrel5 Hash.squirrel5_bij
  exact ⟨u, by rw [seedOf_eq, seedOf_eq]; exact h1, fun u' h => h2 u' (by rw [seedOf_eq, seedOf_eq] at h; exact h)⟩

/-- Streams with the seeds 1 and 2 stay apart for two numbers; that with the seed `hash(hash(1))` meets the first. -/
example : ¬ Share 2 1 2 ∧ Share 3 1 (Hash.squirrel5 (Hash.squirrel5 1)) := by
  refine ⟨fun h => ?_, (C182_share_partial 3 (by omega) _ _).2 ⟨2, by omega, .inl rfl⟩⟩
  obtain ⟨k, hk, h⟩ := (C182_share_partial 2 (by omega) _ _).1 h
  match k, hk with
  | 0, _ => rcases h with h | h <;> exact absurd h (by decide +kernel)
  | 1, _ =>
    rcases h with h | h
    · exact absurd h (by decide +kernel)
    · exact absurd h (by decide +kernel)

end Rpp.Props
