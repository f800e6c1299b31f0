import Verif.Props.Map
import Verif.Spec.Reserve

/-!
# Property C183: maps with the same contents look the same

Full statement: what can be seen of a map by lookups and iteration depends on its contents only. False of the order of the iteration and of the
length, which depend on how the contents came about; true up to the order.
-/

namespace Rpp.Props

open Rpp Rpp.Spec Rpp.Map

/-- **C183, partial.** Two maps that answer every lookup alike, whatever their histories, capacities and hash functions, list the same
entries. Missing: in the same order; see `C183_order_false`. -/
theorem C183_entries_partial {K V : Type} [DecidableEq K] {H H' : K → Nat} (hH : ∀ k, H k < 2 ^ 64) (hH' : ∀ k, H' k < 2 ^ 64) {lim lim' : Nat}
    (hlim : lim < 2 ^ 62) (hlim' : lim' < 2 ^ 62) {d d' : V} {m m' : Map K V} (hr : Reachable H lim d m) (hr' : Reachable H' lim' d' m')
    (he : ∀ k, try_get H m k = try_get H' m' k) : ∃ l l', iter m = .ok l ∧ iter m' = .ok l' ∧ l.Perm l' := by
  obtain ⟨l, e, hn, hm⟩ := C24_iteration hH hlim hr
  obtain ⟨l', e', hn', hm'⟩ := C24_iteration hH' hlim' hr'
  refine ⟨l, l', e, e', (List.perm_ext_iff_of_nodup hn.of_map hn'.of_map).2 fun p => ?_⟩
  rw [hm p.1 p.2, hm' p.1 p.2, he]

/-- **C183, partial.** Conversely, maps that list the same entries, in whatever order, answer every lookup alike. -/
theorem C183_lookups_partial {K V : Type} [DecidableEq K] {H H' : K → Nat} (hH : ∀ k, H k < 2 ^ 64) (hH' : ∀ k, H' k < 2 ^ 64) {lim lim' : Nat}
    (hlim : lim < 2 ^ 62) (hlim' : lim' < 2 ^ 62) {d d' : V} {m m' : Map K V} (hr : Reachable H lim d m) (hr' : Reachable H' lim' d' m')
    {l l' : List (K × V)} (e : iter m = .ok l) (e' : iter m' = .ok l') (hp : l.Perm l') (k : K) : try_get H m k = try_get H' m' k := by
  obtain ⟨l1, e1, -, hm⟩ := C24_iteration hH hlim hr
  obtain ⟨l2, e2, -, hm'⟩ := C24_iteration hH' hlim' hr'
  cases e.symm.trans e1
  cases e'.symm.trans e2
  obtain ⟨o, ho⟩ : ∃ o, try_get H m k = .ok o := ⟨_, try_get_ok ⟨hH⟩ (hr.inv ⟨hH⟩ hlim) k⟩
  obtain ⟨o', ho'⟩ : ∃ o, try_get H' m' k = .ok o := ⟨_, try_get_ok ⟨hH'⟩ (hr'.inv ⟨hH'⟩ hlim') k⟩
  rw [ho, ho']
  refine congrArg _ ?_
  have key : ∀ v, o = some v ↔ o' = some v := by
    intro v
    have h1 := hm k v
    have h2 := hm' k v
    rw [ho, Except.ok.injEq] at h1
    rw [ho', Except.ok.injEq] at h2
    rw [← h1, ← h2]
    exact hp.mem_iff
  exact Option.ext key

/-- **The property is false:** the same two entries added in different orders are listed in different orders; so are the same entries of a map of another
capacity; and a map that has been told an entry twice has another length. -/
theorem C183_order_false :
    (insertAll (fun _ : Nat => 1) 100 Map.nil [(1, 10), (2, 20)] >>= iter) = .ok [(1, 10), (2, 20)] ∧
    (insertAll (fun _ : Nat => 1) 100 Map.nil [(2, 20), (1, 10)] >>= iter) = .ok [(2, 20), (1, 10)] ∧
    (insertAll (fun k : Nat => 2 ^ 59 * (2 - k) + 1) 100 Map.nil [(1, 10), (2, 20)] >>= iter) = .ok [(2, 20), (1, 10)] ∧
    (reserve 100 Map.nil 4 >>= fun m => insertAll (fun k : Nat => 2 ^ 59 * (2 - k) + 1) 100 m [(1, 10), (2, 20)] >>= iter) =
      .ok [(1, 10), (2, 20)] ∧
    (insertAll (fun _ : Nat => 1) 100 Map.nil [(1, 10)] >>= fun m => .ok m.len) = .ok 1 ∧
    (insertAll (fun _ : Nat => 1) 100 Map.nil [(1, 10), (1, 10)] >>= fun m => .ok m.len) = .ok 2 := by
  refine ⟨?_, ?_, ?_, ?_, ?_, ?_⟩ <;> decide +kernel

/-- Non-vacuity: two maps with different histories and the same lookups. -/
example : ∃ m m' : Map Nat Nat, Reachable (fun _ => 1) 100 0 m ∧ Reachable (fun _ => 1) 100 0 m' ∧ m.data ≠ m'.data ∧
    (try_get (fun _ => 1) m 1, try_get (fun _ => 1) m 2) = (try_get (fun _ => 1) m' 1, try_get (fun _ => 1) m' 2) ∧
    try_get (fun _ => 1) m 1 = .ok (some 10) := by
  have mk : ∀ {m : Map Nat Nat} {k v : Nat}, Reachable (fun _ => 1) 100 0 m → ∀ {r : Map Nat Nat × MapOut Nat Nat},
      Map.step (fun _ => 1) 100 0 m (.insert k v) = .ok r → Reachable (fun _ => 1) 100 0 r.1 :=
    fun hr _ h => .step hr (by intro n h; cases h) h
  have h1 : Reachable (fun _ => 1) 100 0 _ := mk (k := 1) (v := 10) .nil rfl
  have h2 : Reachable (fun _ => 1) 100 0 _ := mk (k := 2) (v := 20) .nil rfl
  exact ⟨_, _, mk (k := 2) (v := 20) h1 rfl, mk (k := 1) (v := 10) h2 rfl, by decide +kernel, by decide +kernel, by decide +kernel⟩

end Rpp.Props
