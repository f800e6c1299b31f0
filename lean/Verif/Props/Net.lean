import Verif.Proof.Net

/-!
# C67, C68, C80, C81: descriptors, datagrams, events and timers
-/

namespace Rpp.Props

open Rpp.Fd

/-! ## C67: `Net::Udp`

Full statement: over all programs each descriptor opened is closed exactly once by the time no socket is alive, and the
length reported by `recv` is at most 1472. -/

/-- No descriptor is closed twice, a socket's descriptor is open, and no two sockets share one: for every program,
assignments included. -/
theorem C67_no_double_close (ops : List Op) :
    (run false ops).closed.Nodup ∧
    ∀ v fd, (run false ops).objs v = some (some fd) → fd ∈ (run false ops).opened ∧ fd ∉ (run false ops).closed ∧
      ∀ u, (run false ops).objs u = some (some fd) → u = v := by
  have h := run_inv false ops
  exact ⟨h.nodup, fun v fd hv => ⟨(h.own v fd hv).1, (h.own v fd hv).2, fun u hu => h.one u v fd hu hv⟩⟩

/-- If sockets are only assigned to after having been moved from, then once no socket is alive exactly the descriptors
opened have been closed, each once. `_partial`: assignment to a socket in use is missing, see `C67_false`. -/
theorem C67_closed_partial (ops : List Op)
    (ha : ∀ pre v u post, ops = pre ++ .assign v u :: post →
      (run false pre).objs v = none ∨ (run false pre).objs v = some none)
    (hd : ∀ v, (run false ops).objs v = none) : (run false ops).closed.Perm (run false ops).opened := by
  have h := run_inv false ops
  have hk := run_kept false ops (.inr fun pre v u post e _ => ha pre v u post e)
  rw [List.perm_ext_iff_of_nodup h.nodup (opened_nodup false ops)]
  intro fd
  refine ⟨h.sub fd, fun hfd => ?_⟩
  rcases hk fd hfd with hc | ⟨v, hv⟩
  · exact hc
  · rw [hd v] at hv; cases hv

example : (run false [.make 0, .moveNew 1 0, .make 2, .assign 0 2, .drop 2, .drop 1, .drop 0]).closed = [1, 0] ∧
    (run false [.make 0, .moveNew 1 0, .make 2, .assign 0 2, .drop 2, .drop 1, .drop 0]).opened = [1, 0] := by decide +kernel

/-- The property is false: assigning to a socket in use, or a socket to itself, never closes the old descriptor. -/
theorem C67_false :
    ((run false [.make 0, .make 1, .assign 0 1, .drop 0, .drop 1]).opened = [1, 0] ∧
     (run false [.make 0, .make 1, .assign 0 1, .drop 0, .drop 1]).closed = [1]) ∧
    ((run false [.make 0, .assign 0 0, .drop 0]).opened = [0] ∧ (run false [.make 0, .assign 0 0, .drop 0]).closed = []) := by
  decide +kernel

/-- What is wrong, in general: when a socket that has a descriptor is assigned to, be it from another socket or from itself,
then whatever follows, the descriptor stays open for ever and no socket has it. -/
theorem C67_lost (pre post : List Op) {v u fd : Nat} (hv : (run false pre).objs v = some (some fd))
    (hu : (run false pre).objs u ≠ none) :
    fd ∈ (run false (pre ++ .assign v u :: post)).opened ∧ fd ∉ (run false (pre ++ .assign v u :: post)).closed ∧
    ∀ w, (run false (pre ++ .assign v u :: post)).objs w ≠ some (some fd) := by
  rw [run_append]
  exact foldl_lost false post _ (step_inv false (run_inv false pre) _) (assign_lost (run_inv false pre) hv hu)

example : (run false [.make 0, .make 1]).objs 0 = some (some 0) ∧ (run false [.make 0, .make 1]).objs 1 ≠ none := by decide +kernel

/-- So a program that ends with no socket alive has closed what it opened, each once, exactly if it never assigned to a
socket that had a descriptor. -/
theorem C67_exact (ops : List Op) (hd : ∀ v, (run false ops).objs v = none) :
    (run false ops).closed.Perm (run false ops).opened ↔
    ∀ pre v u post, ops = pre ++ .assign v u :: post → (run false pre).objs u ≠ none →
      (run false pre).objs v = none ∨ (run false pre).objs v = some none := by
  have h := run_inv false ops
  constructor
  · intro hp pre v u post e hu
    match hv : (run false pre).objs v with
    | none => exact .inl rfl
    | some none => exact .inr rfl
    | some (some fd) =>
      subst e
      have hl := C67_lost pre post hv hu
      exact absurd (hp.mem_iff.2 hl.1) hl.2.1
  · intro ha
    have hk := run_kept false ops (.inr ha)
    rw [List.perm_ext_iff_of_nodup h.nodup (opened_nodup false ops)]
    intro fd
    refine ⟨h.sub fd, fun hfd => ?_⟩
    rcases hk fd hfd with hc | ⟨v, hv⟩
    · exact hc
    · rw [hd v] at hv; cases hv

example : (run false [.make 0, .make 1, .assign 0 1, .drop 0, .drop 1]).opened.length = 2 ∧
    (run false [.make 0, .make 1, .assign 0 1, .drop 0, .drop 1]).closed.length = 1 := by decide +kernel

/-- A datagram that fits is reported with its length and its bytes are at the front of the packet, the rest of which is
as before; without one nothing is reported. `_partial`: longer datagrams and errors, see `C67_recv_false`. -/
theorem C67_recv_partial {buf : List UInt8} (hb : buf.length = Net.mtu) :
    Net.recv buf .wouldBlock = (none, buf) ∧
    ∀ b : List UInt8, b.length ≤ Net.mtu → Net.recv buf (.datagram b) = (some b.length, b ++ buf.drop b.length) := by
  refine ⟨rfl, fun b hl => ?_⟩
  have h1 : (((b.length : Nat) : Int) % 2 ^ 64).toNat = b.length := by unfold Net.mtu at hl; omega
  unfold Net.recv Net.recvfrom
  dsimp only
  rw [h1, hb, List.take_of_length_le hl]

/-- The property is false: an error is reported as a datagram of 2^64 − 1 bytes, and a datagram that does not fit with its
full length, for every such datagram. -/
theorem C67_recv_false {buf : List UInt8} (hb : buf.length = Net.mtu) :
    (Net.recv buf .error).1 = some (2 ^ 64 - 1) ∧
    ∀ b : List UInt8, Net.mtu < b.length → b.length < 2 ^ 63 →
      (Net.recv buf (.datagram b)).1 = some b.length ∧ (Net.recv buf (.datagram b)).2 = b.take Net.mtu := by
  refine ⟨rfl, fun b hl hl' => ?_⟩
  have h1 : (((b.length : Nat) : Int) % 2 ^ 64).toNat = b.length := by omega
  unfold Net.recv Net.recvfrom
  dsimp only
  rw [h1, hb, List.drop_eq_nil_of_le (by omega), List.append_nil]
  exact ⟨rfl, rfl⟩

/-- `send` hands the first `length` bytes of the packet to the kernel; a `length` beyond the packet is not noticed. -/
theorem C67_send {buf : List UInt8} (hb : buf.length = Net.mtu) (n : Nat) :
    Net.send buf n = if n ≤ 1472 then .ok (buf.take n) else .error .ub := by
  unfold Net.send
  rw [hb]
  rfl

/-! ## C80: `Async::Event` ownership and `wait_any` -/

/-- Over every program of creating, moving, assigning (also to itself) and destroying events: descriptors are never
shared or closed while owned, and once no event is alive each descriptor opened has been closed exactly once. -/
theorem C80_owned (ops : List Op) :
    (∀ v fd, (run true ops).objs v = some (some fd) → fd ∈ (run true ops).opened ∧ fd ∉ (run true ops).closed ∧
      ∀ u, (run true ops).objs u = some (some fd) → u = v) ∧
    (run true ops).closed.Nodup ∧
    (∀ fd ∈ (run true ops).opened, fd ∈ (run true ops).closed ∨ ∃ v, (run true ops).objs v = some (some fd)) ∧
    ((∀ v, (run true ops).objs v = none) → (run true ops).closed.Perm (run true ops).opened) := by
  have h := run_inv true ops
  have hk := run_kept true ops (.inl rfl)
  refine ⟨fun v fd hv => ⟨(h.own v fd hv).1, (h.own v fd hv).2, fun u hu => h.one u v fd hu hv⟩, h.nodup, hk, fun hd => ?_⟩
  rw [List.perm_ext_iff_of_nodup h.nodup (opened_nodup true ops)]
  intro fd
  refine ⟨h.sub fd, fun hfd => ?_⟩
  rcases hk fd hfd with hc | ⟨v, hv⟩
  · exact hc
  · rw [hd v] at hv; cases hv

example : (run true [.make 0, .make 1, .assign 0 1, .drop 0, .drop 1]).closed = [1, 0] := by decide +kernel

/-- Assigning an event to itself closes its descriptor and leaves it empty. -/
theorem C80_self_assign (v : Nat) : (run true [.make v, .assign v v]).objs v = some none ∧
    (run true [.make v, .assign v v]).closed = [0] := by
  simp [run, step, St.init, Fd.set, closing]

/-- `wait_any` on events with different descriptors returns the index of one that is signalled; it waits for ever only
if none is. `_partial`: without signal handlers, see `C80_false`. -/
theorem C80_wait_partial {fds : List Nat} (h : fds.Nodup) (ready : Nat → Bool) (pick : Nat) :
    (∃ i fd, Event.waitAny (fds.map some) ready pick false = .ok i ∧ fds[i]? = some fd ∧ ready fd = true) ∨
    (Event.waitAny (fds.map some) ready pick false = .error .hang ∧ ∀ fd ∈ fds, ready fd = false) :=
  Event.waitAny_ok h ready pick

example : Event.waitAny [some 4, some 7, some 5] (fun fd => fd = 5 || fd = 7) 1 false = .ok 2 := by decide +kernel

/-- A signal handler running during the wait ends the program; so does a moved-from event or the same descriptor
twice, signalled or not. -/
theorem C80_false : Event.waitAny [some 4, some 7] (fun _ => true) 0 true = .error .die ∧
    Event.waitAny [some 4, none] (fun _ => true) 0 false = .error .die ∧
    Event.waitAny [some 4, some 4] (fun _ => true) 0 false = .error .die := by decide +kernel

/-- In general: `wait_any` ends the program exactly if a signal handler ran, or one of the events has been moved from, or two
have the same descriptor, whichever are signalled. -/
theorem C80_wait_exact (fds : List (Option Nat)) (ready : Nat → Bool) (pick : Nat) (intr : Bool) :
    Event.waitAny fds ready pick intr = .error .die ↔ intr = true ∨ none ∈ fds ∨ ¬ fds.Nodup :=
  Event.waitAny_die fds ready pick intr

example : ¬ [some 4, some 7, some 4].Nodup := by decide

/-! ## C81: signalling

Full statement: `signal` makes the event ready, `reset` makes it not ready, in any order, and `try_wait` tells which. -/

/-- For every sequence of `signal` (true) and `reset` (false) in which each `reset` directly follows a `signal`: the event is
ready exactly if the last operation was `signal`. `_partial`: other resets and `try_wait`, see `C81_false`. -/
theorem C81_signal_partial (bs : List Bool) (hn : bs.length ≤ 2 ^ 64 - 2)
    (hb : ∀ pre post, bs = pre ++ false :: post → pre.getLast? = some true) :
    ∃ c, Event.runOps 0 bs = .ok c ∧ (c ≠ 0 ↔ bs.getLast? = some true) := by
  obtain ⟨c, e, h, _⟩ := Event.runOps_ok bs 0 (by omega) (fun pre post he => .inr (hb pre post he))
  refine ⟨c, e, ?_⟩
  rw [h]
  cases bs.getLast? <;> simp

example : Event.runOps 0 [true, true, false, true] = .ok 1 := by decide +kernel

/-- `try_wait` denies every signal, and resetting an event that is not signalled ends the program. -/
theorem C81_false : (∀ c, Event.tryWait c = false) ∧ Event.runOps 0 [true] = .ok 1 ∧ Event.runOps 0 [false] = .error .die ∧
    Event.runOps 0 [true, false, false] = .error .die :=
  ⟨fun _ => rfl, by decide +kernel, by decide +kernel, by decide +kernel⟩

/-- In general: a sequence goes through exactly if each `reset` in it directly follows a `signal`. -/
theorem C81_exact (bs : List Bool) (hn : bs.length ≤ 2 ^ 64 - 2) :
    (∃ c, Event.runOps 0 bs = .ok c) ↔ ∀ pre post, bs = pre ++ false :: post → pre.getLast? = some true := by
  constructor
  · rintro ⟨c, h⟩ pre post e
    rcases Event.runOps_only bs 0 c h pre post e with ⟨h0, _⟩ | h1
    · exact absurd rfl h0
    · exact h1
  · intro hb
    obtain ⟨c, e, _⟩ := C81_signal_partial bs hn hb
    exact ⟨c, e⟩

example : ¬ ∀ pre post, [true, false, false] = pre ++ false :: post → pre.getLast? = some true := fun h => by
  have := h [true, false] [] rfl
  simp at this

/-! ## C68: `Async::wait` -/

/-- For every positive delay the timer goes off exactly that many milliseconds later (as far as the kernel's clock
reaches, 292 years). `_partial`: the delay zero is missing, see `C68_false`. -/
theorem C68_wait_partial {now ms : Nat} (h : 0 < ms) (hm : now + ms * 1000000 < 9223372036 * 1000000000) :
    Timer.wait now ms = .ok (some (now + ms * 1000000)) := by
  have h1 : wmul (ms % 1000) 1000000 = (ms % 1000) * 1000000 := by
    have := Nat.mod_lt ms (show 0 < 1000 by omega)
    unfold wmul
    omega
  unfold Timer.wait Timer.settime
  rw [h1, if_pos (by omega), if_neg (by omega), if_pos (by omega)]
  congr 2
  omega

/-- A delay of zero never ends: a zero time disarms the timer. -/
theorem C68_false (now : Nat) : Timer.wait now 0 = .ok none := by
  simp [Timer.wait, Timer.settime, wmul]

example : Timer.wait 7 1500 = .ok (some 1500000007) := by decide +kernel

end Rpp.Props
