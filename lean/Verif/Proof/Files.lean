import Verif.Spec.FilesView
import Verif.Model.Files
import Mathlib.Data.List.Induction

/-!
# File access: helper lemmas
-/

namespace Rpp.Files

open Rpp.Spec

variable {P : Type} [DecidableEq P]

theorem amount_le (c n : Nat) : amount c n ≤ n := by
  unfold amount
  split
  · omega
  · have := Nat.mod_lt c (Nat.pos_of_ne_zero ‹_›)
    omega

theorem amount_pos {c n : Nat} (h : n ≠ 0) : 0 < amount c n := by
  unfold amount
  rw [if_neg h]
  omega

/-- Every amount from one to `n` is a possible choice. -/
theorem amount_all {k n : Nat} (h : 0 < k) (hk : k ≤ n) : amount (k - 1) n = k := by
  unfold amount
  rw [if_neg (by omega), Nat.mod_eq_of_lt (by omega)]
  omega

theorem close_new {w : World P} (h : Fresh w) (d : Desc P) : (sysClose (newFd w d).2 (newFd w d).1).fds = w.fds := by
  unfold sysClose newFd
  dsimp only
  rw [List.filter_cons_of_neg (by simp)]
  exact List.filter_eq_self.2 fun x hx => by
    have := h x hx
    simp
    omega

theorem write_false (w : World P) (p : P) (data : List UInt8) (a : Ans) :
    ∃ w', write w p data a = (false, w') ∧ w'.files = w.files ∧
      w'.fds.length = w.fds.length + (if (w.files p).isSome ∧ a.opens = true then 1 else 0) := by
  unfold write openRd
  cases hp : w.files p with
  | none => exact ⟨w, by simp, rfl, by simp⟩
  | some f =>
    by_cases ho : a.opens = true
    · rw [if_pos ho]
      refine ⟨(newFd w { path := p, rd := true, wr := false, pos := 0 }).2, ?_, rfl, ?_⟩
      · simp [sysWrite, newFd, List.lookup]
      · simp [newFd, ho]
    · rw [if_neg ho]
      exact ⟨w, by simp, rfl, by simp [ho]⟩

/-- Reading a file that can be opened. -/
theorem read_open {lim : Nat} {w : World P} {p : P} {a : Ans} {f : File} (hf : Fresh w) (hp : w.files p = some f)
    (ho : a.opens = true) {n : Nat} (hs : f.size = n) (hn : n ≤ 0xffffffff) (hl : n ≤ lim) :
    (a.count = none → ∃ w', read lim w p a = .ok (none, w') ∧ w'.files = w.files ∧ w'.fds.length = w.fds.length + 1) ∧
    (∀ c, a.count = some c → ∃ w', read lim w p a =
        .ok (some (f.bytes.take (amount c (min n f.bytes.length)) ++
          List.replicate (n - amount c (min n f.bytes.length)) 0), w') ∧ w'.files = w.files ∧ w'.fds = w.fds) := by
  have hsz : sysSize (newFd w { path := p, rd := true, wr := false, pos := 0 }).2 p = n := by
    simp [sysSize, newFd, hp, hs]
  have hmod : (((n : Nat) : Int) % 2 ^ 64).toNat = n := by omega
  have hn' : ((n : Nat) : Int) ≤ 0xffffffff := by omega
  constructor
  · intro hc
    refine ⟨(newFd w { path := p, rd := true, wr := false, pos := 0 }).2, ?_, rfl, by simp [newFd]⟩
    unfold read openRd
    simp only [hp, ho, if_true, hsz, if_pos hn', hmod, if_pos hl]
    simp [sysRead, newFd, List.lookup, hp, hc]
  · intro c hc
    refine ⟨sysClose (newFd w { path := p, rd := true, wr := false, pos := 0 }).2 w.next, ?_, rfl, close_new hf _⟩
    unfold read openRd
    simp only [hp, ho, if_true, hsz, if_pos hn', hmod, if_pos hl]
    have hlen : min (amount c (min n f.bytes.length)) f.bytes.length = amount c (min n f.bytes.length) := by
      have := amount_le c (min n f.bytes.length)
      omega
    simp [sysRead, newFd, List.lookup, hp, hc, hlen]

theorem write_open {w : World P} {p : P} {data : List UInt8} {a : Ans} (hf : Fresh w) (ho : a.opens = true) :
    (a.count = none → ∃ w', asyncWrite w p data a = (false, w') ∧ Written (contents w) (contents w') p [] ∧
      w'.fds.length = w.fds.length + 1) ∧
    (∀ c, a.count = some c → ∃ w', asyncWrite w p data a = (true, w') ∧
      Written (contents w) (contents w') p (data.take (amount c data.length)) ∧ w'.fds = w.fds) := by
  constructor
  · intro hc
    refine ⟨(openCreate w p a).2, ?_, ?_, ?_⟩
    · simp [asyncWrite, openCreate, ho, sysWrite, newFd, List.lookup, hc, setFile]
    · intro q
      by_cases hq : q = p <;> simp [contents, openCreate, ho, newFd, setFile, hq]
    · simp [openCreate, ho, newFd, setFile]
  · intro c hc
    refine ⟨sysClose (sysWrite (openCreate w p a).2 w.next data a).2 w.next, ?_, ?_, ?_⟩
    · simp [asyncWrite, openCreate, ho, sysWrite, newFd, List.lookup, hc, setFile]
    · intro q
      by_cases hq : q = p <;> simp [contents, openCreate, ho, newFd, setFile, hq, sysWrite, List.lookup, hc, sysClose]
    · have h1 : (sysWrite (openCreate w p a).2 w.next data a).2.fds = (openCreate w p a).2.fds := by
        simp [openCreate, ho, newFd, setFile, sysWrite, List.lookup, hc]
      unfold sysClose
      dsimp only
      rw [h1]
      simp only [openCreate, ho, if_true]
      have hf' : ∀ f, Fresh (setFile w p f) := fun f => hf
      exact close_new (hf' _) _

/-- What the watcher remembers: the last time seen. -/
def lastSeen (obs : List (Option Int)) : Option Int := obs.reverse.findSome? id

theorem lastSeen_concat (obs : List (Option Int)) (o : Option Int) :
    lastSeen (obs ++ [o]) = match o with | some t => some t | none => lastSeen obs := by
  unfold lastSeen
  rw [List.reverse_append]
  cases o <;> simp

theorem lastSeen_none {obs : List (Option Int)} : lastSeen obs = none ↔ ∀ (j : Nat) s, obs[j]? ≠ some (some s) := by
  unfold lastSeen
  rw [List.findSome?_eq_none_iff]
  constructor
  · intro h j s hj
    have := h (some s) (List.mem_reverse.2 (List.mem_of_getElem? hj))
    cases this
  · intro h x hx
    cases x with
    | none => rfl
    | some s =>
      obtain ⟨j, hj⟩ := List.mem_iff_getElem?.1 (List.mem_reverse.1 hx)
      exact absurd hj (h j s)

theorem lastSeen_some : ∀ (obs : List (Option Int)) {s : Int}, lastSeen obs = some s →
    ∃ j, obs[j]? = some (some s) ∧ ∀ k, j < k → k < obs.length → obs[k]? = some none := by
  intro obs
  induction obs using List.reverseRecOn with
  | nil => intro s h; simp [lastSeen] at h
  | append_singleton obs o ih =>
    intro s h
    rw [lastSeen_concat] at h
    cases o with
    | some t =>
      cases h
      exact ⟨obs.length, by simp, fun k h1 h2 => by simp at h2; omega⟩
    | none =>
      obtain ⟨j, h1, h2⟩ := ih h
      have hj : j < obs.length := by
        rcases Nat.lt_or_ge j obs.length with h | h
        · exact h
        · rw [List.getElem?_eq_none h] at h1; cases h1
      refine ⟨j, by rw [List.getElem?_append_left hj]; exact h1, fun k h3 h4 => ?_⟩
      simp at h4
      rcases Nat.lt_or_ge k obs.length with h | h
      · rw [List.getElem?_append_left h]; exact h2 k h3 h
      · have : k = obs.length := by omega
        subst this
        simp

/-- `Newer` by the last time seen. -/
theorem newer_iff (pre : List (Option Int)) (o : Option Int) (post : List (Option Int)) :
    Newer (pre ++ o :: post) pre.length ↔ ∃ t, o = some t ∧ ∀ s, lastSeen pre = some s → s < t := by
  have hget : (pre ++ o :: post)[pre.length]? = some o := by simp
  have hleft : ∀ k, k < pre.length → (pre ++ o :: post)[k]? = pre[k]? := fun k h => List.getElem?_append_left h
  unfold Newer
  rw [hget]
  constructor
  · rintro ⟨t, ht, h⟩
    refine ⟨t, by simpa using ht, fun s hs => ?_⟩
    obtain ⟨j, h1, h2⟩ := lastSeen_some pre hs
    have hj : j < pre.length := by
      rcases Nat.lt_or_ge j pre.length with h | h
      · exact h
      · rw [List.getElem?_eq_none h] at h1; cases h1
    exact h j s hj (by rw [hleft j hj]; exact h1) fun k h3 h4 => by rw [hleft k h4]; exact h2 k h3 h4
  · rintro ⟨t, rfl, h⟩
    refine ⟨t, rfl, fun j s hj hs hk => ?_⟩
    rw [hleft j hj] at hs
    cases hl : lastSeen pre with
    | none => exact absurd hs (lastSeen_none.1 hl j s)
    | some s' =>
      obtain ⟨i, h1, h2⟩ := lastSeen_some pre hl
      have hi : i < pre.length := by
        rcases Nat.lt_or_ge i pre.length with h | h
        · exact h
        · rw [List.getElem?_eq_none h] at h1; cases h1
      rcases Nat.lt_trichotomy i j with hij | hij | hij
      · have := h2 j hij hj
        rw [hs] at this
        cases this
      · subst hij
        rw [hs] at h1
        cases h1
        exact h _ hl
      · have := hk i hij hi
        rw [hleft i hi, h1] at this
        cases this

theorem fileTime_lt {s t : Int} (hs : 0 ≤ s) (hs' : s < 2 ^ 63) (ht : 0 ≤ t) (ht' : t < 2 ^ 63) :
    fileTime s < fileTime t ↔ s < t := by
  unfold fileTime
  omega

theorem polls_length : ∀ (obs : List (Option Int)) (last : Nat), (polls last obs).length = obs.length
  | [], _ => rfl
  | o :: obs, last => by simp [polls, polls_length obs]

/-- The polls after a history `pre`. -/
theorem polls_newer : ∀ (obs pre : List (Option Int)) (last : Nat),
    (∀ t, some t ∈ pre ++ obs → 0 < t ∧ t < 2 ^ 63) → last = watch (lastSeen pre) →
    ∀ i, i < obs.length → ((polls last obs)[i]? = some true ↔ Newer (pre ++ obs) (pre.length + i))
  | [], _, _, _, _, i, hi => by simp at hi
  | o :: obs, pre, last, ht, hl, i, hi => by
    cases i with
    | zero =>
      rw [Nat.add_zero, newer_iff]
      simp only [polls, List.getElem?_cons_zero, Option.some.injEq]
      cases o with
      | none => simp [poll]
      | some t =>
        have h1 := ht t (by simp)
        have h2 : last < fileTime t ↔ ∀ s, lastSeen pre = some s → s < t := by
          rw [hl]
          cases hs : lastSeen pre with
          | none =>
            simp only [watch]
            constructor
            · intro _ s h; cases h
            · intro _; unfold fileTime; omega
          | some s =>
            obtain ⟨j, hj, _⟩ := lastSeen_some pre hs
            have h3 := ht s (List.mem_append.2 (.inl (List.mem_of_getElem? hj)))
            simp only [watch]
            rw [fileTime_lt (by omega) h3.2 (by omega) h1.2]
            constructor
            · intro h s' e; cases e; exact h
            · intro h; exact h s rfl
        simp [poll, h2]
    | succ i =>
      have ih := polls_newer obs (pre ++ [o]) (poll last o).2 (by simpa using ht)
        (by
          rw [lastSeen_concat]
          cases o with
          | none => exact hl
          | some t => rfl) i (by simpa using hi)
      simp only [polls, List.getElem?_cons_succ]
      rw [ih]
      simp [Nat.add_assoc, Nat.add_comm 1 i]

end Rpp.Files
