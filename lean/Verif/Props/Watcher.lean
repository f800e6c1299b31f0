import Verif.Proof.Watcher

/-!
# C170: write times and `Write_Watcher` on Windows (`rpp/w32/files_w32.cpp`, `rpp/files.h`)
-/

namespace Rpp.Props

open Rpp.Watcher Rpp.Watcher.Spec Rpp.Spec

/-- **C170.** `before` of two times as `last_write_time` gives them is the order of the times, all of them; the whole 64 bits count. -/
theorem C170_before (a b : FILETIME) : before (pack a) (pack b) = true ↔ ticks a < ticks b := before_iff a b

example : before (pack ⟨0xFFFFFFFF, 1⟩) (pack ⟨0, 2⟩) = true ∧ before (pack ⟨0, 2⟩) (pack ⟨0xFFFFFFFF, 1⟩) = false ∧
    before (pack ⟨5, 0x80000000⟩) (pack ⟨6, 0x80000000⟩) = true := by decide +kernel

/-- **C170.** Different times stay different. -/
theorem C170_pack {a b : FILETIME} (h : pack a = pack b) : a = b := by
  rw [← unpack_pack a, h, unpack_pack]

/-- **C170**, for paths that are not empty and times after the beginning of 1601: whatever happens to the files and to the text between the polls, as
long as the text was not given back, poll `i` returns true exactly if there is a file of the name that is *now* shown and it is newer than the file
of the last successful look. `_partial`: a changed file need not be newer, and the name need not be the one the watcher was made with, see
`C170_false`. -/
theorem C170_follows_partial {p : Text} {w : World} {ws : List World} {o : Option Int} {obs : List (Option Int)} (hlen : p.len ≠ 0)
    (hs : Sees w p o) (hf : List.Forall₂ (fun w o => Sees w p o) ws obs) (ht : ∀ t, some t ∈ obs → 0 < t) :
    ∃ rs, run p w ws = .ok rs ∧ rs.length = ws.length ∧ ∀ i, i < ws.length → (rs[i]? = some true ↔ Newer (o :: obs) (i + 1)) :=
  run_sees hlen hs hf ht

/-- **C170**, for a text that stays: poll `i` returns true exactly if the file that the watcher was made for is newer than at the last successful
look. -/
theorem C170_poll_partial {p : Text} {name : List UInt8} {w : World} {ws : List World} (hne : name ≠ []) (hw : ∀ v ∈ w :: ws, Shows v p name)
    (ht : ∀ v ∈ ws, ∀ t, v.disk name = some t → 0 < ticks t) :
    ∃ rs, run p w ws = .ok rs ∧ rs.length = ws.length ∧ ∀ i, i < ws.length →
      (rs[i]? = some true ↔ Newer ((w :: ws).map fun v => (v.disk name).map fun t => (ticks t : Int)) (i + 1)) := by
  have hlen : p.len ≠ 0 := by
    rw [← (hw w List.mem_cons_self).1]
    simpa using hne
  refine run_sees hlen ⟨name, hw w List.mem_cons_self, rfl⟩ (obs := ws.map fun v => (v.disk name).map fun t => (ticks t : Int)) ?_ ?_
  · have hv : ∀ v ∈ ws, Shows v p name := fun v hv => hw v (List.mem_cons_of_mem _ hv)
    clear hw ht
    induction ws with
    | nil => exact .nil
    | cons v ws ih => exact .cons ⟨name, hv v List.mem_cons_self, rfl⟩ (ih fun u hu => hv u (List.mem_cons_of_mem _ hu))
  · intro t hm
    obtain ⟨v, hv, he⟩ := List.mem_map.1 hm
    cases hd : v.disk name with
    | none => rw [hd] at he; cases he
    | some f =>
      rw [hd] at he
      have := ht v hv f hd
      cases he
      show (0 : Int) < (ticks f : Int)
      omega

/-- **C170.** A write at least 100 ns after the one the watcher was made at is reported by the next poll, if the clock of the file system counts each
100 ns; the poll after that reports nothing. Times are in nanoseconds since 1601. -/
theorem C170_later {p : Text} {name : List UInt8} {w v : World} {t₁ t₂ : Nat} (hne : name ≠ []) (h1 : Shows w p name) (h2 : Shows v p name)
    (d1 : w.disk name = some (stamp t₁)) (d2 : v.disk name = some (stamp t₂)) (h : t₁ + 100 ≤ t₂) (hr : t₂ / 100 < 2 ^ 64) :
    run p w [v, v] = .ok [true, false] := by
  have hlen : p.len ≠ 0 := by
    rw [← h1.1]
    simpa using hne
  have e1 : lastWriteTime w p = .ok (some (pack (stamp t₁))) := by
    simp only [lastWriteTime, read_shows h1, d1, bind, Except.bind]; rfl
  have e2 : lastWriteTime v p = .ok (some (pack (stamp t₂))) := by
    simp only [lastWriteTime, read_shows h2, d2, bind, Except.bind]; rfl
  have b1 : before (pack (stamp t₁)) (pack (stamp t₂)) = true := by
    rw [before_iff, ticks_stamp hr, ticks_stamp (by omega)]; omega
  have b2 : before (pack (stamp t₂)) (pack (stamp t₂)) = false := by
    rw [Bool.eq_false_iff, Ne, before_iff]; omega
  simp only [run, watch, if_neg hlen, e1, e2, polls, poll, bind, Except.bind, pure, Except.pure, b1, b2]

/-- **C170.** A write in the same 100 ns as the last look is missed, and stays missed. -/
theorem C170_same_tick {p : Text} {name : List UInt8} {w : World} {ws : List World} {t : FILETIME} (hne : name ≠ [])
    (hw : ∀ v ∈ w :: ws, Shows v p name ∧ v.disk name = some t) : run p w ws = .ok (List.replicate ws.length false) := by
  have hlen : p.len ≠ 0 := by
    rw [← (hw w List.mem_cons_self).1.1]
    simpa using hne
  have e : ∀ v ∈ w :: ws, lastWriteTime v p = .ok (some (pack t)) := fun v hv => by
    simp only [lastWriteTime, read_shows (hw v hv).1, (hw v hv).2, bind, Except.bind]; rfl
  have b : before (pack t) (pack t) = false := by
    rw [Bool.eq_false_iff, Ne, before_iff]; omega
  simp only [run, watch, if_neg hlen, e w List.mem_cons_self, bind, Except.bind, pure, Except.pure]
  have e' : ∀ v ∈ ws, lastWriteTime v p = .ok (some (pack t)) := fun v hv => e v (List.mem_cons_of_mem _ hv)
  clear e hw
  induction ws with
  | nil => rfl
  | cons v ws ih =>
    have := ih fun u hu => e' u (List.mem_cons_of_mem _ hu)
    simp only [polls, poll, if_neg hlen, e' v List.mem_cons_self, bind, Except.bind, pure, Except.pure, b, List.length_cons, List.replicate_succ] at this ⊢
    rw [this]

/-- **C170.** If a byte of the path was given back, the poll is undefined. -/
theorem C170_gone {v : World} {s : Watcher} {i : Nat} (hi : i < s.path.len) (h : v.mem (s.path.ptr + i) = none) : poll v s = .error .ub := by
  have : s.path.len ≠ 0 := by omega
  simp only [poll, if_neg this, lastWriteTime, read_gone hi h, bind, Except.bind]

/-- **C170.** A watcher of the empty path reports nothing and looks at nothing. -/
theorem C170_empty {p : Text} (hp : p.len = 0) (w : World) (ws : List World) : run p w ws = .ok (List.replicate ws.length false) := by
  simp only [run, watch, if_pos hp, bind, Except.bind, pure, Except.pure]
  induction ws with
  | nil => rfl
  | cons v ws ih =>
    simp only [polls, poll, if_pos hp, bind, Except.bind, pure, Except.pure, ih, List.length_cons, List.replicate_succ]

/-- Memory with the bytes `b` at address 100. -/
def at100 (b : List UInt8) : Nat → Option UInt8 := fun a => if 100 ≤ a then b[a - 100]? else none

/-- Files `a` and `b` with the times given. -/
def twoFiles (a b : Option FILETIME) : List UInt8 → Option FILETIME :=
  fun n => if n = [97] then a else if n = [98] then b else none

/-- **C170 fails.** A file that is replaced by an older one is missed. A file is reported that did not change: the text the watcher looks at names
another one by now. The text was given back: undefined. A file with the first of all times appears and is missed. -/
theorem C170_false :
    run ⟨100, 1⟩ ⟨at100 [97], twoFiles (some ⟨200, 7⟩) none⟩ [⟨at100 [97], twoFiles (some ⟨100, 7⟩) none⟩] = .ok [false] ∧
    run ⟨100, 1⟩ ⟨at100 [97], twoFiles (some ⟨200, 7⟩) (some ⟨0, 8⟩)⟩ [⟨at100 [98], twoFiles (some ⟨200, 7⟩) (some ⟨0, 8⟩)⟩] = .ok [true] ∧
    run ⟨100, 1⟩ ⟨at100 [97], twoFiles (some ⟨200, 7⟩) none⟩ [⟨at100 [], twoFiles (some ⟨300, 7⟩) none⟩] = .error .ub ∧
    run ⟨100, 1⟩ ⟨at100 [97], twoFiles none none⟩ [⟨at100 [97], twoFiles (some ⟨0, 0⟩) none⟩] = .ok [false] := by
  decide +kernel

/-! Runs that meet the hypotheses. -/

example : run ⟨100, 1⟩ ⟨at100 [97], twoFiles none none⟩ [⟨at100 [97], twoFiles (some ⟨0xFFFFFFFF, 7⟩) none⟩,
    ⟨at100 [97], twoFiles (some ⟨0xFFFFFFFF, 7⟩) none⟩, ⟨at100 [97], twoFiles none none⟩, ⟨at100 [97], twoFiles (some ⟨0, 8⟩) none⟩] =
    .ok [true, false, false, true] := by decide +kernel

theorem shows_at100 (b : List UInt8) (d : List UInt8 → Option FILETIME) : Shows ⟨at100 b, d⟩ ⟨100, b.length⟩ b :=
  ⟨rfl, fun i _ => by simp [at100]⟩

example : run ⟨100, 1⟩ ⟨at100 [97], twoFiles (some (stamp 13000000000000000000)) none⟩
    [⟨at100 [97], twoFiles (some (stamp 13000000000000000100)) none⟩, ⟨at100 [97], twoFiles (some (stamp 13000000000000000100)) none⟩] =
    .ok [true, false] :=
  C170_later (name := [97]) (by decide) (shows_at100 [97] _) (shows_at100 [97] _) (t₁ := 13000000000000000000) (t₂ := 13000000000000000100) rfl rfl
    (by decide) (by decide)

example : run ⟨100, 1⟩ ⟨at100 [97], twoFiles (some ⟨3, 7⟩) none⟩ [⟨at100 [97], twoFiles (some ⟨3, 7⟩) (some ⟨9, 9⟩)⟩] = .ok [false] :=
  C170_same_tick (name := [97]) (t := ⟨3, 7⟩) (ws := [_]) (by decide) (by
    intro v hv
    rcases List.mem_cons.1 hv with rfl | hv
    · exact ⟨shows_at100 [97] _, rfl⟩
    · rw [List.mem_singleton.1 hv]
      exact ⟨shows_at100 [97] _, rfl⟩)

example := C170_poll_partial (p := ⟨100, 1⟩) (name := [97]) (w := ⟨at100 [97], twoFiles (some ⟨3, 7⟩) none⟩)
  (ws := [⟨at100 [97], twoFiles (some ⟨4, 7⟩) none⟩]) (by decide) (by
    intro v hv
    rcases List.mem_cons.1 hv with rfl | hv
    · exact shows_at100 [97] _
    · rw [List.mem_singleton.1 hv]
      exact shows_at100 [97] _) (by
    intro v hv t ht
    rw [List.mem_singleton.1 hv] at ht
    cases ht
    decide)

end Rpp.Props
