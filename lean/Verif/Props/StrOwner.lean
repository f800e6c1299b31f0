import Verif.Proof.StrOwner

/-!
# C136: strings own their memory, and views look at them

Full statement: programs on any number of strings and views of them do what `Verif.Spec.Strings` says, for which strings are values and
views follow the contents of their string; all memory is freed.
-/

namespace Rpp.Props
open Rpp.StrOwn
open Rpp.Spec.Strs (Op Out Small Overlap)

/-- No operation of the program is an overlapping write when its turn comes. -/
def NoOverlap (lim : Nat) (ops : List Op) : Prop :=
  ∀ as o bs s, ops = as ++ o :: bs → Spec.Strs.run lim Spec.Strs.init as = .ok s → ¬ Overlap s o

/-- **C136, partial.** For all programs: they see exactly what the specification says, end with an assertion or without memory exactly if
it says so, and the behaviour is undefined only if the program uses a view whose string is gone or a byte that has no value. Missing
because false: `C136_overlap`. -/
theorem C136_strings_partial (lim : Nat) (hlim : lim < 2 ^ 62) (ops : List Op) (hs : ∀ o ∈ ops, Small o)
    (ho : NoOverlap lim ops) :
    (run lim init ops).map (fun m : St => m.out) =
      (Spec.Strs.run lim Spec.Strs.init ops).map (fun s : Spec.Strs.St => s.out) := by
  have := run_match hlim ops (init_R lim) hs ho
  unfold Match at this
  split at this
  · rename_i h
    obtain ⟨m, e, r⟩ := this
    rw [e, h]
    simp [Except.map, r.out]
  · rename_i h
    rw [this, h]
    rfl

/-- **C136, partial.** Memory: whenever no string holds anything, all of them having been destroyed or moved from, all memory has been
freed; the bytes in use at other times are the capacities of the strings, each in a block of its own. Freeing twice would have been
undefined. -/
theorem C136_freed_partial (lim : Nat) (hlim : lim < 2 ^ 62) (ops : List Op) (hs : ∀ o ∈ ops, Small o) (ho : NoOverlap lim ops)
    (s : Spec.Strs.St) (hr : Spec.Strs.run lim Spec.Strs.init ops = .ok s) :
    ∃ m, run lim init ops = .ok m ∧
      ((∀ x, (s.vars x).buf = []) → ∀ (id : Nat) b, m.mem[id]? ≠ some (some b)) ∧
      ∀ (id : Nat) b, m.mem[id]? = some (some b) → ∃ x, b = (s.vars x).buf ∧ b ≠ [] ∧
        ∀ y, (m.vars y).data = some id ↔ y = x := by
  have := run_match hlim ops (init_R lim) hs ho
  rw [hr] at this
  obtain ⟨m, e, r⟩ := this
  refine ⟨m, e, fun hx id b hb => ?_, fun id b hb => ?_⟩
  · obtain ⟨x, hd⟩ := r.own id b hb
    exact (r.str x).pos id hd (hx x)
  · obtain ⟨x, hd⟩ := r.own id b hb
    have hm := (r.str x).some id hd
    rw [hb] at hm
    have hbe : b = (s.vars x).buf := by injection hm with hm; injection hm
    exact ⟨x, hbe, by rw [hbe]; exact (r.str x).pos id hd, fun y => ⟨fun hy => r.inj y x id hy hd, fun hy => hy ▸ hd⟩⟩

/-- **C136 is false:** every write that overlaps its source, which the specification allows, is undefined behaviour. -/
theorem C136_overlap (lim : Nat) (hlim : lim < 2 ^ 62) (ops : List Op) (hs : ∀ o ∈ ops, Small o) (ho : NoOverlap lim ops)
    (s s' : Spec.Strs.St) (hr : Spec.Strs.run lim Spec.Strs.init ops = .ok s) (o : Op) (hso : Small o) (hov : Overlap s o)
    (hok : Spec.Strs.step lim s o = .ok s') : run lim init (ops ++ [o]) = .error .ub := by
  have := run_match hlim ops (init_R lim) hs ho
  rw [hr] at this
  obtain ⟨m, e, r⟩ := this
  rw [run_append e, run, overlap_ub r o hso hlim hov hok]

/-- Overlap exists: `x = "abc"`, `v = x.sub(1, 3)`, `x.write(0, v)`, which should give `bcc`; and `x.write(0, x)`. -/
theorem C136_false :
    let ops : List Op := [.lit 0 (lit "abc"), .string 0 0, .subStr 1 0 1 3, .writeView 0 0 1, .view 2 0, .bytes 2]
    let ops' : List Op := [.lit 0 (lit "abc"), .string 0 0, .writeStr 0 0 0, .view 2 0, .bytes 2]
    (Spec.Strs.run 100 Spec.Strs.init ops).map (fun s : Spec.Strs.St => s.out) = .ok [.bytes (lit "bcc")] ∧
    (run 100 init ops).map (fun m : St => m.out) = .error .ub ∧
    (Spec.Strs.run 100 Spec.Strs.init ops').map (fun s : Spec.Strs.St => s.out) = .ok [.bytes (lit "abc")] ∧
    (run 100 init ops').map (fun m : St => m.out) = .error .ub := by
  decide +kernel

/-- A view follows a string that is moved, and sees what is written into it; the clone stays as it was. -/
example :
    let ops : List Op := [.lit 0 (lit "abc"), .string 0 0, .view 1 0, .clone 1 0, .move 2 0, .put 2 0 (ch 'X'), .bytes 1, .view 3 1,
      .bytes 3, .append 1 1 3, .terminate 0 1, .length 0, .view 1 1, .bytes 1, .drop 0, .drop 1, .drop 2]
    (run 100 init ops).map (fun m : St => (m.out, m.mem)) =
      .ok ([.bytes (lit "Xbc"), .bytes (lit "abc"), .num 4, .bytes (lit "Xbcabc")], [none, none, none, none]) := by
  decide +kernel

/-- A view used after its string got new contents; bytes that were never written; a length above the capacity. -/
example :
    (run 100 init [.lit 0 (lit "abc"), .string 0 0, .view 1 0, .fresh 0 7, .bytes 1]).map (fun m : St => m.out) = .error .ub ∧
    (run 100 init [.fresh 0 7, .setLen 0 7, .get 0 3]).map (fun m : St => m.out) = .error .ub ∧
    (run 100 init [.fresh 0 7, .setLen 0 8]).map (fun m : St => m.out) = .error .die ∧
    (run 100 init [.fresh 0 101]).map (fun m : St => m.out) = .error .oom := by
  decide +kernel

end Rpp.Props
