import Verif.Spec.Watcher
import Verif.Proof.Files

/-! # Proofs about write times and file watchers on Windows -/

namespace Rpp.Watcher

open Rpp.Watcher.Spec Rpp.Spec

theorem unpack_pack (t : FILETIME) : unpack (pack t) = t := by
  obtain ⟨l, h⟩ := t
  simp only [unpack, pack, FILETIME.mk.injEq]
  constructor
  · apply BitVec.eq_of_getLsbD_eq
    intro i hi
    simp [BitVec.getLsbD_setWidth, BitVec.getLsbD_or, BitVec.getLsbD_shiftLeft, hi]
  · apply BitVec.eq_of_getLsbD_eq
    intro i hi
    have h1 : 32 + i < 64 := by omega
    simp [BitVec.getLsbD_setWidth, BitVec.getLsbD_or, BitVec.getLsbD_shiftLeft, BitVec.getLsbD_ushiftRight, hi, h1]

theorem compare_lt (a b : FILETIME) : compareFileTime a b = -1 ↔ ticks a < ticks b := by
  have h1 := a.low.isLt
  have h2 := b.low.isLt
  simp only [compareFileTime, BitVec.lt_def, ticks]
  split
  · simp only [true_iff]; omega
  · split
    · simp; omega
    · split
      · simp only [true_iff]; omega
      · split
        · simp; omega
        · simp; omega

theorem before_iff (a b : FILETIME) : before (pack a) (pack b) = true ↔ ticks a < ticks b := by
  simp only [before, unpack_pack, decide_eq_true_iff, compare_lt]

theorem mapM_ok {α β : Type} (f : α → Res β) : ∀ (l : List α) (r : List β), l.length = r.length →
    (∀ i (h : i < l.length) (h' : i < r.length), f l[i] = .ok r[i]) → l.mapM f = .ok r
  | [], [], _, _ => rfl
  | x :: l, y :: r, hl, h => by
    have h0 := h 0 (by simp) (by simp)
    simp only [List.getElem_cons_zero] at h0
    have := mapM_ok f l r (by simpa using hl) (fun i hi hi' => by
      have := h (i + 1) (by simpa using hi) (by simpa using hi')
      simpa using this)
    rw [List.mapM_cons, h0]
    simp only [bind, Except.bind]
    rw [this]
    rfl

theorem read_shows {w : World} {s : Text} {name : List UInt8} (h : Shows w s name) : s.read w = .ok name := by
  apply mapM_ok
  · simp [h.1]
  · intro i hi hi'
    simp only [List.length_range] at hi
    simp only [List.getElem_range, h.2 i hi, List.getElem?_eq_getElem hi']

theorem mapM_ub {α β : Type} (f : α → Res β) (hf : ∀ x e, f x = .error e → e = .ub) :
    ∀ (l : List α) (x : α), x ∈ l → f x = .error .ub → l.mapM f = .error .ub
  | y :: l, x, hm, hx => by
    rw [List.mapM_cons]
    cases hy : f y with
    | error e =>
      rw [hf y e hy]
      rfl
    | ok b =>
      rcases List.mem_cons.1 hm with rfl | hm
      · rw [hx] at hy; cases hy
      · have := mapM_ub f hf l x hm hx
        simp only [bind, Except.bind]
        rw [this]

theorem read_gone {w : World} {s : Text} {i : Nat} (hi : i < s.len) (h : w.mem (s.ptr + i) = none) : s.read w = .error .ub := by
  apply mapM_ub _ _ _ i (List.mem_range.2 hi)
  · simp [h]
  · intro x e
    split
    · intro h; cases h
    · intro h; cases h; rfl

theorem lwt_sees {w : World} {s : Text} {o : Option Int} (h : Sees w s o) :
    (o = none ∧ lastWriteTime w s = .ok none) ∨ ∃ t, o = some (ticks t : Int) ∧ lastWriteTime w s = .ok (some (pack t)) := by
  obtain ⟨name, hs, rfl⟩ := h
  simp only [lastWriteTime, read_shows hs, bind, Except.bind]
  cases w.disk name with
  | none => left; exact ⟨rfl, rfl⟩
  | some t => right; exact ⟨t, rfl, rfl⟩

/-- The last time that was seen is what the watcher holds; it holds 0 if none was. -/
def Holds (seen : List (Option Int)) (last : BitVec 64) : Prop :=
  match Files.lastSeen seen with
  | none => last = pack ⟨0, 0⟩
  | some t => ∃ f, last = pack f ∧ t = (ticks f : Int)

theorem holds_lt {seen : List (Option Int)} {last : BitVec 64} (h : Holds seen last) {t : FILETIME} (ht : 0 < ticks t) :
    before last (pack t) = true ↔ ∀ s, Files.lastSeen seen = some s → s < (ticks t : Int) := by
  unfold Holds at h
  cases hl : Files.lastSeen seen with
  | none =>
    rw [hl] at h
    simp only at h
    rw [h, before_iff]
    simp only [reduceCtorEq, false_implies, implies_true, iff_true]
    exact ht
  | some s =>
    rw [hl] at h
    obtain ⟨f, rfl, rfl⟩ := h
    rw [before_iff]
    simp

/-- A poll says whether the file is newer, and the watcher holds the new time. -/
theorem poll_sees {seen post : List (Option Int)} {w : World} {s : Watcher} {o : Option Int} (hlen : s.path.len ≠ 0) (hs : Sees w s.path o)
    (ht : ∀ t, o = some t → 0 < t) (h : Holds seen s.last) :
    ∃ b s', poll w s = .ok (b, s') ∧ s'.path = s.path ∧ Holds (seen ++ [o]) s'.last ∧
      (b = true ↔ Newer (seen ++ o :: post) seen.length) := by
  rcases lwt_sees hs with ⟨rfl, hw⟩ | ⟨t, rfl, hw⟩
  · refine ⟨false, s, ?_, rfl, ?_, ?_⟩
    · simp only [poll, if_neg hlen, hw, bind, Except.bind]; rfl
    · unfold Holds
      rw [Files.lastSeen_concat]
      exact h
    · rw [Files.newer_iff]; simp
  · refine ⟨before s.last (pack t), { s with last := pack t }, ?_, rfl, ?_, ?_⟩
    · simp only [poll, if_neg hlen, hw, bind, Except.bind]; rfl
    · unfold Holds
      rw [Files.lastSeen_concat]
      exact ⟨t, rfl, rfl⟩
    · rw [Files.newer_iff, holds_lt h (by have := ht _ rfl; omega)]
      simp

theorem polls_sees : ∀ (ws : List World) (obs seen : List (Option Int)) (s : Watcher), s.path.len ≠ 0 →
    List.Forall₂ (fun w o => Sees w s.path o) ws obs → (∀ t, some t ∈ obs → 0 < t) → Holds seen s.last →
    ∃ rs, polls s ws = .ok rs ∧ rs.length = ws.length ∧
      ∀ i, i < ws.length → (rs[i]? = some true ↔ Newer (seen ++ obs) (seen.length + i))
  | [], [], _, _, _, _, _, _ => ⟨[], rfl, rfl, fun i hi => by simp at hi⟩
  | w :: ws, o :: obs, seen, s, hlen, hf, ht, h => by
    obtain ⟨hs, hf⟩ := List.forall₂_cons.1 hf
    obtain ⟨b, s', hp, he, hh, hb⟩ := poll_sees (post := obs) hlen hs (fun t e => ht t (by simp [e])) h
    obtain ⟨rs, h1, h2, h3⟩ := polls_sees ws obs (seen ++ [o]) s' (by rw [he]; exact hlen) (by rw [he]; exact hf)
      (fun t hm => ht t (List.mem_cons_of_mem _ hm)) hh
    refine ⟨b :: rs, ?_, by simp [h2], ?_⟩
    · simp only [polls, hp, h1, bind, Except.bind]; rfl
    · intro i hi
      cases i with
      | zero => simpa using hb
      | succ i =>
        have := h3 i (by simpa using hi)
        simp only [List.getElem?_cons_succ, this, List.append_assoc, List.singleton_append, List.length_append, List.length_singleton]
        rw [Nat.add_assoc, Nat.add_comm 1 i]

theorem watch_sees {w : World} {p : Text} {o : Option Int} (hlen : p.len ≠ 0) (hs : Sees w p o) :
    ∃ s, watch w p = .ok s ∧ s.path = p ∧ Holds [o] s.last := by
  have hc := Files.lastSeen_concat [] o
  rw [List.nil_append] at hc
  rcases lwt_sees hs with ⟨rfl, hw⟩ | ⟨t, rfl, hw⟩
  · refine ⟨⟨p, 0⟩, ?_, rfl, ?_⟩
    · simp only [watch, if_neg hlen, hw, bind, Except.bind]; rfl
    · unfold Holds
      rw [hc]
      show (0 : BitVec 64) = pack ⟨0, 0⟩
      decide
  · refine ⟨⟨p, pack t⟩, ?_, rfl, ?_⟩
    · simp only [watch, if_neg hlen, hw, bind, Except.bind]; rfl
    · unfold Holds
      rw [hc]
      exact ⟨t, rfl, rfl⟩

theorem run_sees {p : Text} {w : World} {ws : List World} {o : Option Int} {obs : List (Option Int)} (hlen : p.len ≠ 0) (hs : Sees w p o)
    (hf : List.Forall₂ (fun w o => Sees w p o) ws obs) (ht : ∀ t, some t ∈ obs → 0 < t) :
    ∃ rs, run p w ws = .ok rs ∧ rs.length = ws.length ∧ ∀ i, i < ws.length → (rs[i]? = some true ↔ Newer (o :: obs) (i + 1)) := by
  obtain ⟨s, h1, rfl, h2⟩ := watch_sees hlen hs
  obtain ⟨rs, h3, h4, h5⟩ := polls_sees ws obs [o] s hlen hf ht h2
  refine ⟨rs, ?_, h4, fun i hi => ?_⟩
  · simp only [run, h1, bind, Except.bind]; exact h3
  · rw [h5 i hi]; simp [Nat.add_comm]

theorem ticks_stamp {ns : Nat} (h : ns / 100 < 2 ^ 64) : ticks (stamp ns) = ns / 100 := by
  simp only [ticks, stamp, BitVec.toNat_ofNat]
  omega

end Rpp.Watcher
