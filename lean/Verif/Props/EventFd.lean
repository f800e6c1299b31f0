import Verif.Proof.EventFd

/-!
# C158: descriptors and handles of events on all systems, with numbers coming back

Full statement: in every program on events (made, moved, assigned, also to themselves, destroyed, built from a descriptor of
the rest of the program) each open number has exactly one holder, every close is of a number the event holds, and once no
event is left only what the rest of the program holds is open.
-/

namespace Rpp.Props

open Rpp.EvFd

/-- On every system, whatever unused numbers the system answers: no program is stopped by a failing close, each number open
is held by exactly one field of one event or by the rest of the program, and no close hits a number not open. -/
theorem C158_owned (y : Sys) (ops : List Op) (h : Handed y ops) : ∃ s, run y ops = .ok s ∧ Owned s := by
  obtain ⟨s, hr, hi⟩ := runFrom_ok y ops St.init init_inv h
  exact ⟨s, hr, hi.nodup, hi.live, fun n v e hn hv => hi.ext n hn v e hv,
    fun n v u e e' => hi.one v u e e' n, fun n v e hv h => hi.two v e n hv h.1 h.2, hi.bad⟩

/-- Once no event is alive, exactly what the rest of the program holds is open. -/
theorem C158_closed (y : Sys) (ops : List Op) (h : Handed y ops) {s : St} (hr : run y ops = .ok s)
    (hd : ∀ v, s.objs v = none) : s.live.Perm s.ext := by
  obtain ⟨s', hr', hi⟩ := runFrom_ok y ops St.init init_inv h
  cases hr.symm.trans hr'
  rw [List.perm_ext_iff_of_nodup hi.nodup hi.enodup]
  intro n
  rw [hi.live n]
  refine ⟨fun h => h.elim id ?_, .inl⟩
  rintro ⟨v, e, hv, _⟩
  rw [hd v] at hv
  cases hv

/-- What the rest of the program holds is never closed by an event: it is open until the program closes it or hands it
over. -/
theorem C158_others (y : Sys) (ops : List Op) (o : Op) (h : Handed y (ops ++ [o])) {s : St} (hr : run y ops = .ok s)
    {n : Nat} (hn : n ∈ s.ext) (h1 : o ≠ .close n) (h2 : ∀ v, o ≠ .ofSys v n) :
    ∃ s', run y (ops ++ [o]) = .ok s' ∧ n ∈ s'.ext ∧ n ∈ s'.live :=
  others_kept y ops o h hr hn h1 h2

/-- A pipe whose numbers come back, a descriptor handed over, self assignment. -/
def eventProgram : List Op :=
  [.open 3, .make 0 4 5, .make 1 6 7, .assign 0 1, .make 2 5 4, .ofSys 3 3, .assign 2 2, .open 8, .drop 0, .drop 1, .drop 2,
    .drop 3]

example : (run .mac eventProgram).map (fun s => (s.live, s.ext, s.bad)) = .ok ([8], [8], []) ∧
    (run .linux eventProgram).map (fun s => (s.live, s.ext, s.bad)) = .ok ([8], [8], []) ∧
    (run .windows eventProgram).map (fun s => (s.live, s.ext, s.bad)) = .ok ([8], [8], []) := by decide +kernel

example : (run .mac (eventProgram.take 5)).map (fun s => (s.live, s.objs 0, s.objs 1, s.objs 2)) =
    .ok ([4, 5, 7, 6, 3], some ⟨some 6, some 7⟩, some ⟨none, none⟩, some ⟨some 5, some 4⟩) := by decide +kernel

/-- The hypothesis is needed: with a descriptor handed to two events, the second close ends the program on Linux and
Windows; on macOS it goes unnoticed, and if the number has come back meanwhile it closes what somebody else holds. -/
theorem C158_twice :
    (run .linux [.open 3, .ofSys 0 3, .ofSys 1 3, .drop 0, .drop 1]).map (fun s => s.live) = .error .die ∧
    (run .windows [.open 3, .ofSys 0 3, .ofSys 1 3, .drop 0, .drop 1]).map (fun s => s.live) = .error .die ∧
    (run .mac [.open 3, .ofSys 0 3, .ofSys 1 3, .drop 0, .drop 1]).map (fun s => (s.live, s.bad)) = .ok ([], [3]) ∧
    ∀ y, (run y [.open 3, .ofSys 0 3, .ofSys 1 3, .drop 0, .open 3, .drop 1]).map (fun s => (s.live, s.ext)) =
      .ok ([], []) := by
  refine ⟨by decide +kernel, by decide +kernel, by decide +kernel, fun y => ?_⟩
  cases y <;> decide +kernel

end Rpp.Props
