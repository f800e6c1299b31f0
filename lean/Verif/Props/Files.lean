import Verif.Proof.Files

/-!
# C64, C65, C66, C79: files and the write watcher
-/

namespace Rpp.Props

open Rpp.Files Rpp.Spec

variable {P : Type} [DecidableEq P]

/-! ## C64: `Files::write`

Full statement: if `write` reports success then `Written (contents w) (contents w') p data`, and it reports success
whenever the file can be opened and the kernel writes everything. The code opens the file for reading only. -/

/-- `Files::write` never reports success and never changes a file, whatever the path, the data and the kernel do; if the
file could be opened its descriptor stays open. -/
theorem C64_never_writes (w : World P) (p : P) (data : List UInt8) (a : Ans) :
    ∃ w', write w p data a = (false, w') ∧ w'.files = w.files ∧
      w'.fds.length = w.fds.length + (if (w.files p).isSome ∧ a.opens = true then 1 else 0) :=
  write_false w p data a

/-- A world with one file, at path 0. -/
def oneFile (bytes : List UInt8) (size : Int) : World Nat :=
  { files := fun p => if p = 0 then some { bytes := bytes, size := size, mode := 0o644 } else none, fds := [], next := 3 }

/-- The property is false: an existing file the kernel would let us write completely. -/
theorem C64_false : (write (oneFile [1, 2] 2) 0 [7, 8, 9] { opens := true, mode := 0, count := some 2 }).1 = false ∧
    contents (write (oneFile [1, 2] 2) 0 [7, 8, 9] { opens := true, mode := 0, count := some 2 }).2 0 = some [1, 2] ∧
    (asyncWrite (oneFile [1, 2] 2) 0 [7, 8, 9] { opens := true, mode := 0, count := some 2 }).1 = true ∧
    contents (asyncWrite (oneFile [1, 2] 2) 0 [7, 8, 9] { opens := true, mode := 0, count := some 2 }).2 0 = some [7, 8, 9] := by
  decide +kernel

/-! ## C65: `Files::read`

Full statement: whenever `read` returns a buffer it equals the file's bytes, and no descriptor stays open. -/

/-- A regular file read in one piece is returned exactly and the descriptor is closed. `_partial`: short reads and
errors are missing, see `C65_short` and `C65_error_leaks`. -/
theorem C65_read_partial {lim : Nat} {w : World P} {p : P} {a : Ans} {f : File} (hf : Fresh w) (hp : w.files p = some f)
    (ho : a.opens = true) (hs : f.size = f.bytes.length) (hn : f.bytes.length ≤ 0xffffffff) (hl : f.bytes.length ≤ lim)
    {c : Nat} (hc : a.count = some c) (hk : amount c f.bytes.length = f.bytes.length) :
    ∃ w', read lim w p a = .ok (some f.bytes, w') ∧ w'.files = w.files ∧ w'.fds = w.fds := by
  obtain ⟨w', e, h1, h2⟩ := (read_open hf hp ho hs hn hl).2 c hc
  rw [Nat.min_self, hk] at e
  exact ⟨w', by rw [e]; simp, h1, h2⟩

/-- A short read of `k` bytes is reported as success, the rest of the buffer being zeros. -/
theorem C65_short {lim : Nat} {w : World P} {p : P} {a : Ans} {f : File} (hf : Fresh w) (hp : w.files p = some f)
    (ho : a.opens = true) (hs : f.size = f.bytes.length) (hn : f.bytes.length ≤ 0xffffffff) (hl : f.bytes.length ≤ lim)
    {k : Nat} (hk : 0 < k) (hk' : k ≤ f.bytes.length) (hc : a.count = some (k - 1)) :
    ∃ w', read lim w p a = .ok (some (f.bytes.take k ++ List.replicate (f.bytes.length - k) 0), w') ∧
      w'.files = w.files ∧ w'.fds = w.fds := by
  obtain ⟨w', e, h1, h2⟩ := (read_open hf hp ho hs hn hl).2 _ hc
  rw [Nat.min_self, amount_all hk hk'] at e
  exact ⟨w', e, h1, h2⟩

/-- When the kernel reports an error, nothing is returned but the descriptor stays open. -/
theorem C65_error_leaks {lim : Nat} {w : World P} {p : P} {a : Ans} {f : File} (hf : Fresh w) (hp : w.files p = some f)
    (ho : a.opens = true) (hs : f.size = f.bytes.length) (hn : f.bytes.length ≤ 0xffffffff) (hl : f.bytes.length ≤ lim)
    (hc : a.count = none) :
    ∃ w', read lim w p a = .ok (none, w') ∧ w'.files = w.files ∧ w'.fds.length = w.fds.length + 1 :=
  (read_open hf hp ho hs hn hl).1 hc

/-- The property is false: a short read; a file whose size is not known in advance; a pipe (the size −1 is taken for
a length); a directory, whose size some file systems give as 2^63 − 1. -/
theorem C65_false :
    (read 100 (oneFile [1, 2, 3] 3) 0 { opens := true, mode := 0, count := some 0 }).map (·.1) = .ok (some [1, 0, 0]) ∧
    (read 100 (oneFile [1, 2, 3] 0) 0 { opens := true, mode := 0, count := some 0 }).map (·.1) = .ok (some []) ∧
    (read (2 ^ 40) (oneFile [1, 2, 3] (-1)) 0 { opens := true, mode := 0, count := some 0 }).map (·.1) = .error .oom ∧
    (read (2 ^ 40) (oneFile [] (2 ^ 63 - 1)) 0 { opens := true, mode := 0, count := some 0 }).map (·.1) = .error .die := by
  decide +kernel

example : (read 100 (oneFile [1, 2, 3] 3) 0 { opens := true, mode := 0, count := some 2 }).map (fun r => (r.1, r.2.fds)) =
    .ok (some [1, 2, 3], []) := by decide +kernel

/-! ## C79: `Async::write` -/

/-- `Async::write` stores the data if the kernel takes it in one piece, and closes the descriptor. `_partial`: short
writes and errors are missing, see `C79_short`, `C79_error`. -/
theorem C79_write_partial {w : World P} {p : P} {data : List UInt8} {a : Ans} (hf : Fresh w) (ho : a.opens = true)
    {c : Nat} (hc : a.count = some c) (hk : amount c data.length = data.length) :
    ∃ w', asyncWrite w p data a = (true, w') ∧ Written (contents w) (contents w') p data ∧ w'.fds = w.fds := by
  obtain ⟨w', e, h1, h2⟩ := (write_open hf ho).2 c hc
  rw [hk, List.take_length] at h1
  exact ⟨w', e, h1, h2⟩

/-- A short write is reported as success although only the first `k` bytes are stored. -/
theorem C79_short {w : World P} {p : P} {data : List UInt8} {a : Ans} (hf : Fresh w) (ho : a.opens = true)
    {k : Nat} (hk : 0 < k) (hk' : k ≤ data.length) (hc : a.count = some (k - 1)) :
    ∃ w', asyncWrite w p data a = (true, w') ∧ Written (contents w) (contents w') p (data.take k) ∧ w'.fds = w.fds := by
  obtain ⟨w', e, h1, h2⟩ := (write_open (data := data) (p := p) hf ho).2 _ hc
  rw [amount_all hk hk'] at h1
  exact ⟨w', e, h1, h2⟩

/-- On an error the old contents are gone and the descriptor stays open. -/
theorem C79_error {w : World P} {p : P} {data : List UInt8} {a : Ans} (hf : Fresh w) (ho : a.opens = true)
    (hc : a.count = none) :
    ∃ w', asyncWrite w p data a = (false, w') ∧ Written (contents w) (contents w') p [] ∧
      w'.fds.length = w.fds.length + 1 :=
  (write_open hf ho).1 hc

/-- The property is false: a short write; and a new file may get any permissions, as none are passed. -/
theorem C79_false :
    (asyncWrite (oneFile [1, 2] 2) 0 [7, 8, 9] { opens := true, mode := 0, count := some 0 }).1 = true ∧
    contents (asyncWrite (oneFile [1, 2] 2) 0 [7, 8, 9] { opens := true, mode := 0, count := some 0 }).2 0 = some [7] ∧
    ∀ m, ((asyncWrite (oneFile [1, 2] 2) 1 [7] { opens := true, mode := m, count := some 0 }).2.files 1).map (·.mode) = some m := by
  refine ⟨by decide +kernel, by decide +kernel, fun m => ?_⟩
  simp [asyncWrite, openCreate, oneFile, newFd, setFile, sysWrite, List.lookup, sysClose]

/-! ## C66: `Write_Watcher` -/

/-- For every history of observed write times after 1970: the `i`-th poll returns true exactly if it could look at the file
and the file is newer than at the last successful look (the constructor's included), if there was one. `_partial`:
time stamps up to 1970 and changes within a second, see `C66_false`. -/
theorem C66_poll_partial (first : Option Int) (obs : List (Option Int))
    (ht : ∀ t, some t ∈ first :: obs → 0 < t ∧ t < 2 ^ 63) {i : Nat} (hi : i < obs.length) :
    (polls (watch first) obs)[i]? = some true ↔ Newer (first :: obs) (i + 1) := by
  have h := polls_newer obs [first] (watch first) ht
    (by
      have := lastSeen_concat [] first
      rw [List.nil_append] at this
      rw [this]
      cases first <;> rfl) i hi
  rw [h]
  simp [Nat.add_comm]

example : polls (watch (some 100)) [some 100, none, some 105, some 105, some 90, some 91] =
    [false, false, true, false, false, true] := by decide +kernel

/-- What `stat` reports of a change at a given nanosecond: whole seconds. -/
def seconds (ns : Nat) : Int := (ns / 10 ^ 9 : Nat)

/-- A change in the same second as the last look is always missed, and stays missed. -/
theorem C66_same_second {t₁ t₂ : Nat} (h : seconds t₁ = seconds t₂) (n : Nat) :
    polls (watch (some (seconds t₁))) (List.replicate n (some (seconds t₂))) = List.replicate n false := by
  rw [h]
  induction n with
  | zero => rfl
  | succ n ih =>
    simp only [List.replicate_succ, polls, poll, watch] at ih ⊢
    rw [ih]
    simp

/-- The property is false: a change half a second after the last look; a file dated one second before 1970 that is
then written in 2026; a file appearing with date 1970. -/
theorem C66_false :
    polls (watch (some (seconds 5000000000))) [some (seconds 5500000000)] = [false] ∧
    polls (watch (some (-1))) [some 1794000000] = [false] ∧ Newer [some (-1), some 1794000000] 1 ∧
    polls (watch none) [some 0] = [false] ∧ Newer [none, some 0] 1 := by
  refine ⟨by decide +kernel, by decide +kernel, ⟨1794000000, rfl, ?_⟩, by decide +kernel, ⟨0, rfl, ?_⟩⟩
  · intro j s hj hs _
    have : j = 0 := by omega
    subst this
    simp at hs
    omega
  · intro j s hj hs _
    have : j = 0 := by omega
    subst this
    simp at hs

end Rpp.Props
