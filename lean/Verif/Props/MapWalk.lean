import Verif.Proof.MapWalk
import Mathlib.Tactic.ByContra

/-!
# C140: changing a map while iterating over it

Full statement: a loop over a map whose body erases keys visits every entry that is not erased before its turn exactly once, so that a
body that erases the entries with some property erases all of them.
-/

namespace Rpp.Props

open Rpp Rpp.Spec Rpp.Map

variable {K V : Type _} [DecidableEq K]

/-- **C140, partial.** A loop whose body erases any keys it likes comes to its end. It visits only entries of the map, and afterwards
exactly the keys that the body erased are gone. Missing: that all entries are visited, and once; see `C140_false`. -/
theorem C140_erase_partial {H : K → Nat} (hH : ∀ k, H k < 2 ^ 64) {lim : Nat} (hlim : lim < 2 ^ 62) {d : V} {m : Map K V}
    (hr : Reachable H lim d m) (ks : K → V → List K) {fuel : Nat} (hf : m.cap < fuel) :
    ∃ l m', walk H lim d (fun k v => (ks k v).map .tryErase) fuel m = .ok (l, m') ∧ Reachable H lim d m' ∧
      (∀ k v, (k, v) ∈ l → try_get H m k = .ok (some v)) ∧
      ∀ k, (try_get H m' k = .ok none ∧ ((∃ k' v', (k', v') ∈ l ∧ k ∈ ks k' v') ∨ try_get H m k = .ok none)) ∨
        (try_get H m' k = try_get H m k ∧ ∀ k' v', (k', v') ∈ l → k ∉ ks k' v') := by
  have h := hr.inv ⟨hH⟩ hlim
  unfold walk
  obtain ⟨c, e, h1, h2, _, h4⟩ := skip_spec (data_len h) m.cap 0 (by omega) (by omega)
  rw [e]
  obtain ⟨l, m', e', r, p1, p2, p3, p4⟩ := walkLoop_erase (d := d) ⟨hH⟩ ks (abs m) fuel h hr (data_len h) (fun _ _ h => h) h2
    (by omega) h4
  have h' := r.inv ⟨hH⟩ hlim
  refine ⟨l, m', e', r, fun k v hk => ?_, fun k => ?_⟩
  · rw [try_get_ok ⟨hH⟩ h, p1 _ hk]
  · rw [try_get_ok ⟨hH⟩ h, try_get_ok ⟨hH⟩ h']
    by_cases hk : ∃ x ∈ l, k ∈ ks x.1 x.2
    · obtain ⟨x, hx, hx2⟩ := hk
      exact .inl ⟨by rw [p4 k ⟨x, hx, hx2⟩], .inl ⟨x.1, x.2, hx, hx2⟩⟩
    · refine .inr ⟨?_, fun k' v' hx hx2 => hk ⟨_, hx, hx2⟩⟩
      rcases p2 k with h | h
      · by_cases ha : abs m k = none
        · rw [h, ha]
        · exact absurd (p3 k ⟨h, ha⟩) hk
      · rw [h]

/-- A hash function that spreads small numbers over the table. -/
def spread (n : Nat) : Nat := (n * 2 ^ 59 + n) % 2 ^ 64

/-- **C140 is false.** The body erases each entry it sees: the entry behind an erased one moves into its slot, is not visited,
and remains. -/
theorem C140_missed_false :
    (do
      let m ← perform spread 1000 0 Map.nil [.insert 1 10, .insert 33 11, .insert 2 12]
      let (l, m) ← walk spread 1000 0 (fun k _ => [.erase k]) 100 m
      return (l, ← iter m)) = .ok ([(1, 10), (2, 12)], [(33, 11)]) := by
  decide +kernel

/-- An entry at the beginning of the table that belongs at its end moves back there when an entry is erased, and is visited
twice. -/
theorem C140_twice_false :
    (do
      let m ← perform spread 1000 0 Map.nil [.insert 30 10, .insert 62 11, .insert 94 12]
      let (l, m) ← walk spread 1000 0 (fun k _ => if k = 30 then [.erase k] else []) 100 m
      return (l, ← iter m)) = .ok ([(94, 12), (30, 10), (94, 12)], [(62, 11), (94, 12)]) := by
  decide +kernel

/-- Inserting is worse: when the table grows the loop runs past the old end and then past the new one. -/
theorem C140_insert_false :
    (do
      let m ← perform spread 1000 0 Map.nil ((List.range 25).filterMap fun k => if k = 15 then none else some (.insert (k + 1) 0))
      let (l, _) ← walk spread 1000 0 (fun k _ => if k = 3 then [.insert 100 0] else []) 200 m
      return l) = .error .ub := by
  decide +kernel

/-- **What does work**: taking the keys from a first loop, and erasing afterwards. -/
theorem C140_collect {H : K → Nat} (hH : ∀ k, H k < 2 ^ 64) {lim : Nat} (hlim : lim < 2 ^ 62) {d : V} {m : Map K V}
    (hr : Reachable H lim d m) (p : K → V → Bool) :
    ∃ l m', iter m = .ok l ∧ perform H lim d m ((l.filter fun x => p x.1 x.2).map fun x => .erase x.1) = .ok m' ∧
      ∀ k v, try_get H m' k = .ok (some v) ↔ try_get H m k = .ok (some v) ∧ p k v = false := by
  have h := hr.inv ⟨hH⟩ hlim
  obtain ⟨m', e, i, a⟩ := perform_erase_present (d := d) ⟨hH⟩ (((slots m.data).map fun s => (s.key, s.val)).filter fun x => p x.1 x.2) h
    (((lists_of h).1.sublist (List.filter_sublist.map _))) (fun x hx => by
      have := ((lists_of h).2 x.1 x.2).mp (List.mem_of_mem_filter hx)
      rw [this]; simp)
  refine ⟨_, m', iter_ok h, e, fun k v => ?_⟩
  rw [try_get_ok ⟨hH⟩ h, try_get_ok ⟨hH⟩ i, a]
  have hv := fun v => (lists_of h).2 k v
  constructor
  · intro hx
    split at hx
    · cases hx
    · next hn =>
      refine ⟨hx, ?_⟩
      by_contra hc
      refine hn (List.mem_map.mpr ⟨(k, v), List.mem_filter.mpr ⟨(hv v).mpr (by simpa using hx), by simpa using hc⟩, rfl⟩)
  · rintro ⟨hx, hp⟩
    rw [if_neg, hx]
    intro hm
    obtain ⟨⟨k', v'⟩, hm2, rfl⟩ := List.mem_map.mp hm
    obtain ⟨h1, h2⟩ := List.mem_filter.mp hm2
    have := (hv v').mp h1
    rw [this] at hx
    cases hx
    dsimp only at h2
    rw [hp] at h2
    cases h2

example : (do
      let m ← perform spread 1000 0 Map.nil [.insert 1 10, .insert 33 11, .insert 2 12]
      let m ← perform spread 1000 0 m [.erase 1, .erase 33, .erase 2]
      iter m) = .ok [] := by
  decide +kernel

/-- A loop that erases, from each entry, an entry elsewhere. -/
example : (do
      let m ← perform spread 1000 0 Map.nil [.insert 1 10, .insert 33 11, .insert 2 12, .insert 7 13]
      let (l, m) ← walk spread 1000 0 (fun k _ => [7, k + 1].map .tryErase) 100 m
      return (l, ← iter m)) = .ok ([(1, 10), (33, 11)], [(1, 10), (33, 11)]) := by
  decide +kernel

end Rpp.Props
