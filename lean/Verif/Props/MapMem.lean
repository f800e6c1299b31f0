import Verif.Proof.MapMemRef
import Verif.Props.Map

/-!
# Ownership of the keys and values of `rpp::Map`

The map is the one in storage (`Model/MapMem`): slots are constructed, moved, assigned and destroyed one
by one. `H` is the key type's non-zero hash, `fuel` any bound on the iterations of the loops (a loop that
reaches it ends in `hang`), `lim` the number of slots that fit in memory.
-/

namespace Rpp.Props
open Rpp Rpp.Spec Rpp.MapMem

variable {K V : Type} [DecidableEq K]

/-- **C93.** Whatever a program does with its maps (make, insert, assign, look up, erase, reserve, clear,
move, also onto itself, clone), each pair that is constructed is destroyed exactly once: if the program
ends, the pairs destroyed are those constructed. -/
theorem C93_map_owns_pairs_once {H : K → Nat} (h0 : ∀ k, H k ≠ 0) (hH : ∀ k, H k < 2 ^ 64)
    (fuel : Nat → Nat) {lim : Nat} (hlim : lim < 2 ^ 62) (d : V) (n : Nat) (ops : List (Op K V))
    (hops : ∀ x n, .make x n ∈ ops → n < 2 ^ 64) {l : Ledger K V}
    (h : program fuel H lim d n ops {} = .ok ((), l)) : l.made.Perm l.dead := by
  have hs : ∀ op ∈ ops, Op.Sane op := by
    intro op ho
    cases op <;> first | trivial | exact hops _ _ ho
  have := Ok.bind (exec_ok ⟨h0, hH⟩ hlim fuel d ops (InvP.init (H := H) (lim := lim) (n := n)) hs)
    (fun vs l' hv => destroyAll_ok ⟨h0, hH⟩ vs hv.2)
  have e : program fuel H lim d n ops {} = (exec fuel H lim d (List.replicate n LMap.nil) ops >>= destroyAll) {} := rfl
  unfold Ok at this
  rw [← e, h] at this
  exact perm_of_cnt (fun x => (this x).symm)

/-- **C93.** No program on maps reads or destroys a pair that is not there, constructs over a live one
or releases its storage, whatever the capacities it asks for. -/
theorem C93_map_no_memory_error {H : K → Nat} (h0 : ∀ k, H k ≠ 0) (hH : ∀ k, H k < 2 ^ 64)
    (fuel : Nat → Nat) {lim : Nat} (hlim : lim < 2 ^ 62) (d : V) (n : Nat) (ops : List (Op K V))
    (hops : ∀ x n, .make x n ∈ ops → n < 2 ^ 64) :
    program fuel H lim d n ops {} ≠ .error .ub ∧ program fuel H lim d n ops {} ≠ .error .leak := by
  have hs : ∀ op ∈ ops, Op.Sane op := by
    intro op ho
    cases op <;> first | trivial | exact hops _ _ ho
  have := Ok.bind (exec_ok ⟨h0, hH⟩ hlim fuel d ops (InvP.init (H := H) (lim := lim) (n := n)) hs)
    (fun vs l' hv => destroyAll_ok ⟨h0, hH⟩ vs hv.2)
  have e : program fuel H lim d n ops {} = (exec fuel H lim d (List.replicate n LMap.nil) ops >>= destroyAll) {} := rfl
  unfold Ok at this
  rw [← e] at this
  constructor <;> (intro hh; rw [hh] at this; rcases this with h | h | h <;> cases h)

/-- **C93.** At every point of a program each pair that has been constructed is in exactly one map or has
been destroyed. -/
theorem C93_map_pairs_accounted {H : K → Nat} (h0 : ∀ k, H k ≠ 0) (hH : ∀ k, H k < 2 ^ 64)
    (fuel : Nat → Nat) {lim : Nat} (hlim : lim < 2 ^ 62) (d : V) (n : Nat) (ops : List (Op K V))
    (hops : ∀ x n, .make x n ∈ ops → n < 2 ^ 64) {vars : List (LMap K V)} {l : Ledger K V}
    (h : exec fuel H lim d (List.replicate n LMap.nil) ops {} = .ok (vars, l)) :
    l.made.Perm (vars.flatMap (fun m => m.data.filterMap Cell.data) ++ l.dead) := by
  have hs : ∀ op ∈ ops, Op.Sane op := by
    intro op ho
    cases op <;> first | trivial | exact hops _ _ ho
  have := exec_ok ⟨h0, hH⟩ hlim fuel d ops (InvP.init (H := H) (lim := lim) (n := n)) hs
  unfold Ok at this
  rw [h] at this
  refine perm_of_cnt (fun x => ?_)
  rw [cnt_append, ← cntV_eq, this.2.bal x]

/-- A program with colliding keys, a key inserted twice, an erasure that shifts slots back, a clone, a
move and a self-move, that constructs and destroys eight pairs. -/
example : ((program (· + 2) (fun k : Nat => k % 2 + 2 ^ 63) 1000 0 2
    [.insert 0 1 10, .insert 0 3 30, .insert 0 5 50, .insert 0 1 11, .tryErase 0 3, .assign 0 5 51, .clone 1 0,
      .getOrInsert 1 7, .reserve 1 100, .move 0 1, .move 0 0, .iterate 0]).run {}).map
      (fun r => (r.2.made.length, r.2.dead.length)) = .ok (8, 8) := by decide +kernel

/-- Capacity one: two pairs fit; the third insertion does not end (C27), but nothing is lost. -/
example : ((program (· + 2) (fun k : Nat => k + 1) 1000 0 1 [.make 0 1, .insert 0 1 10, .insert 0 2 20]).run {}).map
      (fun r => (r.2.made, r.2.dead)) = .ok ([(2, 20), (1, 10)], [(2, 20), (1, 10)]) := by decide +kernel

/-- **C93.** The map in storage shows its user what a finite map would show, as in C22, and its
destruction ends without a memory error. -/
theorem C93_map_in_storage_is_finite_map {H : K → Nat} (h0 : ∀ k, H k ≠ 0) (hH : ∀ k, H k < 2 ^ 64) (lim : Nat)
    (hlim : lim < 2 ^ 62) (d : V) (ops : List (MapOp K V)) (h1 : .reserve 1 ∉ ops) :
    MapAllowed (lim < mapDemand ops) false d FMap.empty ops ((life H lim d ops {}).map Prod.fst) := by
  have hs := life_sim h0 lim d ops {}
  have hc := C22_map_is_finite_map hH lim hlim d ops h1
  unfold Rel at hs
  cases e : Map.run H lim d Map.nil ops with
  | error e' =>
    rw [e] at hs hc
    dsimp only at hs
    rw [hs]; exact hc
  | ok b =>
    rw [e] at hs hc
    obtain ⟨a, l', e1, e2⟩ := hs
    subst e2
    rw [e1]; exact hc

example : (life (fun _ : Nat => 2 ^ 64 - 1) 1000 0
    [.insert 1 10, .insert 2 20, .insert 3 30, .erase 1, .tryGet 1, .get 2, .get 3, .insert 2 21, .get 2,
      .getOrInsert 7, .iterate] {}).map Prod.fst =
    .ok [.val 10, .val 20, .val 30, .unit, .opt none, .val 20, .val 30, .val 21, .val 21, .val 0,
      .list [(3, 30), (7, 0), (2, 21)]] := by
  decide +kernel

end Rpp.Props
