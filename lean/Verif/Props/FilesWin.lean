import Verif.Proof.FilesWin

/-!
# C114, C115, C116: files, asynchronous files and timers on Windows
-/

namespace Rpp.Props

open Rpp.FilesWin Rpp.Spec

variable {P : Type} [DecidableEq P]

/-- A world with one file, at path 0. -/
def winFile (bytes : List UInt8) : World Nat :=
  { files := fun p => if p = 0 then some bytes else none, handles := [], next := 1 }

/-! ## C114: `Files::read`, `Files::write`

Full statement: whenever `read` returns a buffer it equals the file's bytes; whenever `write` returns true the file holds
the data and no other file changes; no handle stays open; neither stops the program. -/

/-- A file shorter than 4 GiB read completely is returned exactly and the handle is closed. `_partial`: short
transfers, longer files, unknown sizes, and systems insisting on the fourth argument of `ReadFile`. -/
theorem C114_read_partial {lim : Nat} {w : World P} {p : P} {a : Ans} {b : List UInt8} (hp : w.files p = some b)
    (ho : a.opens = true) (hs : a.sizes = true) (hn : b.length ≤ 0xffffffff) (hl : b.length ≤ lim) (hx : a.strict = false)
    {k : Nat} (hc : a.count = some k) (hk : b.length ≤ k) :
    ∃ w', FilesWin.read lim w p a = .ok (some b, w') ∧ w'.files = w.files ∧ w'.handles = w.handles := by
  refine ⟨{ w with next := w.next + 1 }, ?_, rfl, rfl⟩
  unfold FilesWin.read openExisting
  rw [hp]
  dsimp only
  rw [if_pos ho]
  dsimp only
  rw [if_pos hs, if_pos hn, if_pos hl, hx, hc]
  simp only [Bool.false_eq_true, if_false]
  closes w.handles
  rw [filled_all hk]
  rfl

/-- What `read` does in every case that it returns: no file changes; what it returns has the file's length and agrees with the
file as far as the system says it read; the handle is closed unless the size was not told. -/
theorem C114_read_all {lim : Nat} {w w' : World P} {p : P} {a : Ans} {r : Option (List UInt8)}
    (h : FilesWin.read lim w p a = .ok (r, w')) :
    w'.files = w.files ∧ (a.sizes = true → w'.handles = w.handles) ∧
    (∀ d, r = some d → ∃ b k, w.files p = some b ∧ a.count = some k ∧ d.length = b.length ∧
      ∀ i, i < b.length → d[i]? = if i < k then b[i]? else some 0) := by
  revert h
  unfold FilesWin.read openExisting
  cases hp : w.files p with
  | none =>
    intro h
    cases h
    exact ⟨rfl, fun _ => rfl, fun d hd => by cases hd⟩
  | some b =>
    dsimp only
    by_cases ho : a.opens = true
    · rw [if_pos ho]
      dsimp only
      by_cases hs : a.sizes = true
      · rw [if_pos hs]
        split
        · split
          · split
            · intro h; cases h
            · split
              · closes w.handles
                intro h
                cases h
                exact ⟨rfl, fun _ => rfl, fun d hd => by cases hd⟩
              · rename_i k hk
                closes w.handles
                intro h
                cases h
                refine ⟨rfl, fun _ => rfl, fun d hd => ?_⟩
                cases hd
                refine ⟨b, k, rfl, hk, filled_length _ _ _, fun i hi => ?_⟩
                rw [filled_get hi, List.getElem?_eq_getElem hi]
                split <;> rfl
          · intro h; cases h
        · intro h; cases h
      · rw [if_neg hs]
        intro h
        cases h
        exact ⟨rfl, fun e => absurd e hs, fun d hd => by cases hd⟩
    · rw [if_neg ho]
      intro h
      cases h
      exact ⟨rfl, fun _ => rfl, fun d hd => by cases hd⟩

/-- When the size of an open file is not told, nothing is returned and the handle stays open, for every file. -/
theorem C114_size_leaks {lim : Nat} {w : World P} {p : P} {a : Ans} {b : List UInt8} (hp : w.files p = some b)
    (ho : a.opens = true) (hs : a.sizes = false) :
    ∃ w', FilesWin.read lim w p a = .ok (none, w') ∧ w'.handles.length = w.handles.length + 1 := by
  refine ⟨(newHandle w).2, ?_, by simp [newHandle]⟩
  unfold FilesWin.read openExisting
  rw [hp]
  dsimp only
  rw [if_pos ho]
  dsimp only
  rw [hs]
  simp

/-- `write` stores data shorter than 4 GiB if the system takes them all, and closes the handle. `_partial`: short
transfers, longer data, and systems insisting on the fourth argument of `WriteFile`. -/
theorem C114_write_partial {w : World P} {p : P} {data : List UInt8} {a : Ans} (ho : a.opens = true)
    (hn : data.length ≤ 0xffffffff) (hx : a.strict = false) {k : Nat} (hc : a.count = some k) (hk : data.length ≤ k) :
    ∃ w', write w p data a = .ok (true, w') ∧ Written w.files w'.files p data ∧ w'.handles = w.handles := by
  refine ⟨{ setFile (newHandle (setFile w p [])).2 p data with handles := w.handles }, ?_, ?_, rfl⟩
  · unfold write createAlways
    rw [if_pos ho]
    dsimp only
    rw [if_pos hn, hx, hc]
    simp only [Bool.false_eq_true, if_false]
    rw [List.take_of_length_le hk]
    closes w.handles
    rfl
  · intro q
    simp only [setFile, newHandle]
    split <;> rfl

/-- In every case that `write` returns, the handle is closed and no other file changes; if it returns true the file holds
a prefix of the data as long as the system says it wrote, if it returns false the file is as before or empty. -/
theorem C114_write_all {w w' : World P} {p : P} {data : List UInt8} {a : Ans} {r : Bool}
    (h : write w p data a = .ok (r, w')) :
    w'.handles = w.handles ∧ (∀ q, q ≠ p → w'.files q = w.files q) ∧
    (r = true → ∃ k, a.count = some k ∧ w'.files p = some (data.take k)) ∧
    (r = false → w'.files p = w.files p ∨ w'.files p = some []) := by
  revert h
  unfold write createAlways
  by_cases ho : a.opens = true
  · rw [if_pos ho]
    dsimp only
    split
    · split
      · intro h; cases h
      · split
        · closes w.handles
          intro h
          cases h
          refine ⟨rfl, fun q hq => ?_, (fun e => by cases e), fun _ => .inr ?_⟩
          · simp [newHandle, setFile, hq]
          · simp [newHandle, setFile]
        · rename_i k hk
          closes w.handles
          intro h
          cases h
          refine ⟨rfl, fun q hq => ?_, fun _ => ⟨k, hk, ?_⟩, (fun e => by cases e)⟩
          · simp [newHandle, setFile, hq]
          · simp [newHandle, setFile]
    · intro h; cases h
  · rw [if_neg ho]
    intro h
    cases h
    exact ⟨rfl, fun q _ => rfl, (fun e => by cases e), fun _ => .inl rfl⟩

/-- Data of 4 GiB and more stop the program, after the old file was emptied. -/
theorem C114_write_dies {w : World P} {p : P} {data : List UInt8} {a : Ans} (ho : a.opens = true)
    (hn : 0xffffffff < data.length) : write w p data a = .error .die := by
  unfold write createAlways
  rw [if_pos ho]
  dsimp only
  rw [if_neg (by omega)]

/-- The property is false: a short transfer is reported as success by both, and a system using the fourth argument of
`ReadFile` or `WriteFile` writes through a null pointer. -/
theorem C114_false :
    (FilesWin.read 100 (winFile [1, 2, 3]) 0 { count := some 1 }).map (·.1) = .ok (some [1, 0, 0]) ∧
    (FilesWin.read 100 (winFile [1, 2, 3]) 0 { sizes := false, count := some 3 }).map (fun r => (r.1, r.2.handles)) = .ok (none, [1]) ∧
    (write (winFile [1, 2]) 0 [7, 8, 9] { count := some 1 }).map (fun r => (r.1, r.2.files 0)) = .ok (true, some [7]) ∧
    (FilesWin.read 100 (winFile [1, 2, 3]) 0 { count := some 3, strict := true }).map (·.1) = .error .ub ∧
    (write (winFile [1, 2]) 0 [7, 8, 9] { count := some 3, strict := true }).map (·.1) = .error .ub := by
  decide +kernel

example : (FilesWin.read 100 (winFile [1, 2, 3]) 0 { count := some 3 }).map (fun r => (r.1, r.2.handles)) = .ok (some [1, 2, 3], []) ∧
    (write (winFile [1, 2]) 0 [7, 8, 9] { count := some 3 }).map (fun r => (r.1, r.2.files 0, r.2.handles)) =
      .ok (true, some [7, 8, 9], []) := by decide +kernel

/-! ## C115: `Async::read`, `Async::write`

Full statement: as for C114. -/

/-- A file up to `2^32 - 4096` bytes whose transfer is started and completes later is returned exactly. `_partial`:
transfers complete at once, failing or short transfers, longer files. -/
theorem C115_read_partial {lim : Nat} {w : World P} {p : P} {a : Ans} {b : List UInt8} (hp : w.files p = some b)
    (ho : a.opens = true) (hs : a.sizes = true) (he : a.events = true) (ht : a.start = .pending)
    (hn : b.length ≤ 0xfffff000) (hl : b.length + 4095 ≤ lim) {k : Nat} (hc : a.count = some k) (hk : b.length ≤ k) :
    ∃ w', asyncRead lim w p a = .ok (some b, w') ∧ w'.files = w.files ∧ w'.handles = w.handles := by
  have ha := alignSector_eq hn
  refine ⟨{ w with next := w.next + 1 + 1 }, ?_, rfl, rfl⟩
  unfold asyncRead openExisting
  rw [hp]
  dsimp only
  rw [if_pos ho]
  dsimp only
  rw [if_pos hs, if_pos (by omega), if_pos (by omega), if_pos he]
  have e : (filled (alignSector b.length) (a.count.getD 0) b).take b.length = b := by
    rw [hc]
    refine List.ext_getElem? fun i => ?_
    by_cases hi : i < b.length
    · rw [List.getElem?_take_of_lt hi, filled_get (by omega), if_pos (by simp; omega), List.getElem?_eq_getElem hi]
      rfl
    · rw [List.getElem?_eq_none (by simp; omega), List.getElem?_eq_none (by omega)]
  rw [ht]
  dsimp only
  rw [e]
  closes (newHandle w).2.handles
  simp only [bind, Except.bind]
  closes w.handles
  rfl

/-- Whatever the system does, if `read` returns then no file has changed and its file handle and event are closed, each
once; and what it returns has the file's length and agrees with the file as far as the transfer went, zeros after. -/
theorem C115_read_all {lim : Nat} {w w' : World P} {p : P} {a : Ans} {r : Option (List UInt8)}
    (hn : ∀ b, w.files p = some b → b.length < 2 ^ 63)
    (h : asyncRead lim w p a = .ok (r, w')) :
    w'.files = w.files ∧ w'.handles = w.handles ∧
    (∀ d, r = some d → ∃ b, w.files p = some b ∧ a.start = .pending ∧ d.length = b.length ∧
      ∀ i, i < b.length → d[i]? = if i < a.count.getD 0 then b[i]? else some 0) := by
  revert h
  unfold asyncRead openExisting
  cases hp : w.files p with
  | none =>
    intro h
    cases h
    exact ⟨rfl, rfl, fun d hd => by cases hd⟩
  | some b =>
    have hn := hn b hp
    dsimp only
    have c1 : closeHandle (newHandle w).2 (newHandle w).1 = .ok { w with next := w.next + 1 } :=
      close_head (newHandle w).2 _ w.handles rfl
    by_cases ho : a.opens = true
    · rw [if_pos ho]
      dsimp only
      by_cases hs : a.sizes = true
      · rw [if_pos hs]
        split
        · rename_i hal
          split
          · split
            · have c2 : closeHandle (newHandle (newHandle w).2).2 (newHandle (newHandle w).2).1 =
                  .ok { w with handles := w.next :: w.handles, next := w.next + 1 + 1 } :=
                close_head (newHandle (newHandle w).2).2 _ (newHandle w).2.handles rfl
              have c3 : closeHandle { w with handles := w.next :: w.handles, next := w.next + 1 + 1 } (newHandle w).1 =
                  .ok { w with next := w.next + 1 + 1 } := close_head _ _ w.handles rfl
              cases ht : a.start with
              | pending =>
                simp only [bind, Except.bind]
                rw [c2]
                simp only []
                rw [c3]
                intro h
                cases h
                refine ⟨rfl, rfl, fun d hd => ?_⟩
                cases hd
                have hle : b.length ≤ alignSector b.length := by
                  obtain ⟨m, ⟨q, hq⟩, h1, h2⟩ := C03_roundUp_exists b.length (a := 4096) (by omega)
                  have hd : m ≤ (b.length + 4095) / 4096 * 4096 := h2 _ ⟨_, Nat.mul_comm _ _⟩ (by omega)
                  have e : alignSector b.length = m :=
                    (C03_align (w := 64) (x := b.length) (a := 4096) (m := m) (by omega) (by omega) ⟨⟨q, hq⟩, h1, h2⟩
                      (by omega)).2 ⟨12, rfl⟩
                  omega
                refine ⟨b, rfl, by trivial, ?_, fun i hi => ?_⟩
                · rw [List.length_take, filled_length]
                  omega
                · rw [List.getElem?_take_of_lt hi, filled_get (by omega), List.getElem?_eq_getElem hi]
                  split <;> rfl
              | done =>
                simp only [bind, Except.bind]
                rw [c2]
                simp only []
                rw [c3]
                intro h
                cases h
                exact ⟨rfl, rfl, fun d hd => by cases hd⟩
              | failed =>
                simp only [bind, Except.bind]
                rw [c2]
                simp only []
                rw [c3]
                intro h
                cases h
                exact ⟨rfl, rfl, fun d hd => by cases hd⟩
            · rw [c1]
              intro h
              cases h
              exact ⟨rfl, rfl, fun d hd => by cases hd⟩
          · intro h; cases h
        · intro h; cases h
      · rw [if_neg hs, c1]
        intro h
        cases h
        exact ⟨rfl, rfl, fun d hd => by cases hd⟩
    · rw [if_neg ho]
      intro h
      cases h
      exact ⟨rfl, rfl, fun d hd => by cases hd⟩

/-- `write` stores data below 2 GiB exactly if the transfer is started, completes later and the file can be cut.
`_partial`: transfers complete at once, failing or short transfers, longer data. -/
theorem C115_write_partial {lim : Nat} {w : World P} {p : P} {data : List UInt8} {a : Ans} (ho : a.opens = true)
    (he : a.events = true) (ht : a.start = .pending) (hs : a.seeks = true) (hcut : a.cuts = true)
    (hn : data.length < 2 ^ 31) (hl : data.length + 4095 ≤ lim) {k : Nat} (hc : a.count = some k) (hk : data.length ≤ k) :
    ∃ w', asyncWrite lim w p data a = .ok (true, w') ∧ Written w.files w'.files p data ∧ w'.handles = w.handles := by
  have ha := alignSector_eq (n := data.length) (by omega)
  have e : filled data.length data.length ((padded data).take (a.count.getD 0)) = data := by
    rw [hc]
    unfold filled
    simp only [Nat.min_self, Option.getD_some, List.take_take, Nat.min_eq_left hk, padded_take, Nat.sub_self]
    simp
  refine ⟨{ setFile (newHandle (newHandle (setFile w p [])).2).2 p data with handles := w.handles }, ?_, ?_, rfl⟩
  · unfold asyncWrite createAlways
    rw [if_pos ho]
    dsimp only
    rw [if_pos he, if_pos (by omega), if_pos (by omega), ht]
    dsimp only
    rw [e]
    closes (newHandle (setFile w p [])).2.handles
    simp only [bind, Except.bind]
    rw [if_pos ((seekStart_iff (by omega) a).2 ⟨hs, hn⟩), if_pos hcut]
    closes w.handles
    simp only [setFile, newHandle]
    congr 4
    funext q
    grind
  · intro q
    simp only [setFile, newHandle]
    split <;> rfl

/-- Data from 2 GiB up are never stored: the file pointer cannot be set to where the file should be cut. If the system
writes everything the result is false and the file is the data followed by zeros to a whole number of sectors. -/
theorem C115_write_large {lim : Nat} {w : World P} {p : P} {data : List UInt8} {a : Ans} (ho : a.opens = true)
    (he : a.events = true) (ht : a.start = .pending) (h31 : 2 ^ 31 ≤ data.length) (hn : data.length ≤ 0xfffff000)
    (hl : data.length + 4095 ≤ lim) {k : Nat} (hc : a.count = some k) (hk : data.length + 4095 ≤ k) :
    ∃ w' z, asyncWrite lim w p data a = .ok (false, w') ∧
      Written w.files w'.files p (data ++ List.replicate z 0) ∧ z < 4096 ∧ 4096 ∣ data.length + z ∧
      w'.handles = w.handles := by
  have ha := alignSector_eq (n := data.length) (by omega)
  refine ⟨{ setFile (newHandle (newHandle (setFile w p [])).2).2 p (padded data) with handles := w.handles },
    alignSector data.length - data.length, ?_, ?_, by omega, ?_, rfl⟩
  · unfold asyncWrite createAlways
    rw [if_pos ho]
    dsimp only
    rw [if_pos he, if_pos (by omega), if_pos (by omega), ht, hc]
    dsimp only
    rw [List.take_of_length_le (by rw [Option.getD_some, padded_length (by omega)]; omega)]
    closes (newHandle (setFile w p [])).2.handles
    simp only [bind, Except.bind]
    rw [if_neg (fun h => by have := (seekStart_iff (by omega) a).1 h; omega)]
    closes w.handles
  · intro q
    simp only [setFile, newHandle, padded]
    split <;> rfl
  · rw [Nat.add_sub_cancel' ha.1]
    exact ha.2.2.2

/-- Whatever the system does, if `write` returns then its file handle and event are closed, each once, and no other
file has changed. -/
theorem C115_write_all {lim : Nat} {w w' : World P} {p : P} {data : List UInt8} {a : Ans} {r : Bool}
    (h : asyncWrite lim w p data a = .ok (r, w')) :
    w'.handles = w.handles ∧ (∀ q, q ≠ p → w'.files q = w.files q) ∧
    (r = true → a.start = .pending ∧ a.seeks = true ∧ a.cuts = true) := by
  revert h
  unfold asyncWrite createAlways
  by_cases ho : a.opens = true
  · rw [if_pos ho]
    dsimp only
    split
    · split
      · split
        · cases ht : a.start with
          | failed =>
            simp only [bind, Except.bind]
            closes (newHandle (setFile w p [])).2.handles
            simp only []
            closes w.handles
            intro h
            cases h
            exact ⟨rfl, fun q hq => by simp [newHandle, setFile, hq], (fun e => by cases e)⟩
          | done =>
            simp only [bind, Except.bind]
            closes (newHandle (setFile w p [])).2.handles
            simp only []
            closes w.handles
            intro h
            cases h
            exact ⟨rfl, fun q hq => by simp [newHandle, setFile, hq], (fun e => by cases e)⟩
          | pending =>
            simp only [bind, Except.bind]
            closes (newHandle (setFile w p [])).2.handles
            simp only []
            split
            · rename_i hsk
              split
              · rename_i hcut
                closes w.handles
                intro h
                cases h
                refine ⟨rfl, fun q hq => by simp [newHandle, setFile, hq], fun _ => ⟨by trivial, ?_, hcut⟩⟩
                unfold seekStart at hsk
                rw [Bool.and_eq_true] at hsk
                exact hsk.1
              · closes w.handles
                intro h
                cases h
                exact ⟨rfl, fun q hq => by simp [newHandle, setFile, hq], (fun e => by cases e)⟩
            · closes w.handles
              intro h
              cases h
              exact ⟨rfl, fun q hq => by simp [newHandle, setFile, hq], (fun e => by cases e)⟩
        · intro h; cases h
      · intro h; cases h
    · closes w.handles
      intro h
      cases h
      exact ⟨rfl, fun q hq => by simp [newHandle, setFile, hq], (fun e => by cases e)⟩
  · rw [if_neg ho]
    intro h
    cases h
    exact ⟨rfl, fun q _ => rfl, (fun e => by cases e)⟩

/-- The property is false: a read that failed after it was started is reported as success with zeros; a read complete at
once gives nothing; a write of which nothing arrived is reported as success with zeros in the file; a write complete at
once is reported as failure and leaves a whole sector in the file. -/
theorem C115_false :
    (asyncRead 5000 (winFile [1, 2, 3]) 0 { count := none }).map (·.1) = .ok (some [0, 0, 0]) ∧
    (asyncRead 5000 (winFile [1, 2, 3]) 0 { start := .done, count := some 3 }).map (·.1) = .ok none ∧
    (asyncWrite 5000 (winFile [1]) 0 [7, 8, 9] { count := none }).map (fun r => (r.1, r.2.files 0)) =
      .ok (true, some [0, 0, 0]) ∧
    (asyncWrite 5000 (winFile [1]) 0 [7, 8, 9] { start := .done, count := some 4096 }).map
      (fun r => (r.1, (r.2.files 0).map (·.length))) = .ok (false, some 4096) := by
  decide +kernel

example : (asyncRead 5000 (winFile [1, 2, 3]) 0 { count := some 3 }).map (fun r => (r.1, r.2.handles)) =
      .ok (some [1, 2, 3], []) ∧
    (asyncWrite 5000 (winFile [1]) 0 [7, 8, 9] { count := some 4096 }).map (fun r => (r.1, r.2.files 0, r.2.handles)) =
      .ok (true, some [7, 8, 9], []) := by decide +kernel

/-! ## C116: `Async::wait` on Windows

Full statement: for every `ms` the task goes on `ms` milliseconds after `now` (times in units of 100 ns). -/

/-- For `ms` up to `2^63 / 10000` (29 thousand years), zero included. `_partial`: longer times, see `C116_false`. -/
theorem C116_wait_partial {now ms : Nat} (h : ms * 10000 < 2 ^ 63) : wait now ms = .ok (now + ms * 10000) := by
  have e : ((ms * 10000 % 2 ^ 64 : Nat) : Int).bmod (2 ^ 64) = ms * 10000 := by
    rw [Nat.mod_eq_of_lt (by omega)]
    unfold Int.bmod
    dsimp only
    split <;> omega
  have d : dueTime ms = .ok (-(ms * 10000)) := by
    unfold dueTime
    rw [e]
    dsimp only
    rw [if_neg (by omega)]
  show (dueTime ms >>= fun d => Except.ok (fires now d)) = _
  rw [d]
  show Except.ok (fires now _) = _
  refine congrArg Except.ok ?_
  unfold fires
  split <;> omega

/-- The first longer time is taken for a date nearly 30000 years after 1601, whatever the time now; a little more than
twice as long for less than a millisecond. -/
theorem C116_false (now : Nat) (h : now < 2 ^ 62) :
    wait now (2 ^ 63 / 10000 + 1) = .ok 9223372036854771616 ∧
    wait now (2 ^ 64 / 10000 + 1) = .ok (now + 8384) := by
  constructor
  · show (dueTime _ >>= fun d => Except.ok (fires now d)) = _
    have e : dueTime (2 ^ 63 / 10000 + 1) = .ok 9223372036854771616 := by decide +kernel
    rw [e]
    show Except.ok (fires now _) = _
    refine congrArg Except.ok ?_
    unfold fires
    rw [if_neg (by omega)]
    omega
  · show (dueTime _ >>= fun d => Except.ok (fires now d)) = _
    have e : dueTime (2 ^ 64 / 10000 + 1) = .ok (-8384) := by decide +kernel
    rw [e]
    simp [bind, Except.bind, fires]

example : wait 132000000000000000 1500 = .ok 132000000015000000 ∧ wait 132000000000000000 0 = .ok 132000000000000000 := by
  decide +kernel

end Rpp.Props
