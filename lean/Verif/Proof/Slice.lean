import Verif.Model.Slice

/-! # Slices: refinement of windows -/

namespace Rpp.Slc
open Spec.Win

variable {α : Type}

/-- The places a slice shows. -/
def places (s : Slice) : List Nat := List.range' s.off s.len

/-- The program state as windows. -/
def abs (s : St α) : Spec.Win.St α := ⟨s.mem, s.vars.map places, s.out⟩

/-- All slices are within the array, whose length is a 64-bit number. -/
structure Ok (s : St α) : Prop where
  inside : ∀ w ∈ s.vars, w.off + w.len ≤ s.mem.length
  bound : s.mem.length < 2 ^ 64

theorem iter_ok (mem : List α) : ∀ (n p : Nat), p + n ≤ mem.length → iter mem n p = .ok (look mem (List.range' p n))
  | 0, _, _ => rfl
  | n + 1, p, h => by
    have hp : p < mem.length := by omega
    unfold iter
    rw [List.getElem?_eq_getElem hp, iter_ok mem n (p + 1) (by omega)]
    simp only [bind, Except.bind, pure, Except.pure, look, List.range'_succ, List.filterMap_cons, List.getElem?_eq_getElem hp]

theorem look_one {mem : List α} {a : Nat} (h : a < mem.length) : look mem [a] = [mem[a]] := by
  simp [look, h]

theorem raw_ok {mem : List α} {w : Slice} {i : Nat} (hi : i < w.len) (h : w.off + w.len ≤ mem.length) :
    raw mem w i = .ok (mem[w.off + i]'(by omega)) := by
  unfold raw
  rw [List.getElem?_eq_getElem (by omega)]

theorem places_get {w : Slice} (i : Nat) : (places w)[i]? = if i < w.len then some (w.off + i) else none := by
  unfold places
  split
  · rw [List.getElem?_range' (by omega)]; simp
  · rw [List.getElem?_eq_none (by simp; omega)]

theorem step_refines {s : St α} (hs : Ok s) (o : Op α) (hf : Fits o) :
    match Slc.step s o with
    | .ok s' => Ok s' ∧ Spec.Win.step (abs s) o = .ok (abs s')
    | .error e => Spec.Win.step (abs s) o = .error e := by
  obtain ⟨hin, hb⟩ := hs
  have var : ∀ v : Nat, (abs s).wins[v]? = (s.vars[v]?).map places := by intro v; simp [abs]
  cases o with
  | sub v start n =>
    simp only [Slc.step, Spec.Win.step, var]
    cases hv : s.vars[v]? with
    | none => rfl
    | some w =>
      have hw := hin w (List.mem_of_getElem? hv)
      have hwr : wadd start n = start + n := by unfold wadd; exact Nat.mod_eq_of_lt hf
      have hl : (places w).length = w.len := by simp [places]
      simp only [Option.map_some, sub, hwr, hl, bind, Except.bind]
      by_cases h : start + n ≤ w.len
      · simp only [if_pos h]
        refine ⟨⟨?_, hb⟩, ?_⟩
        · intro x hx
          rcases List.mem_append.mp hx with hx | hx
          · exact hin x hx
          · rw [List.mem_singleton] at hx; subst hx; dsimp only; omega
        · have e : ((places w).drop start).take n = places ⟨w.off + start, n⟩ := by
            apply List.ext_getElem?
            intro i
            rw [List.getElem?_take, List.getElem?_drop, places_get, places_get]
            dsimp only
            split
            · rw [if_pos (by omega)]; congr 1; omega
            · rfl
          simp [abs, e]
      · simp only [if_neg h]
  | read v i =>
    simp only [Slc.step, Spec.Win.step, var]
    cases hv : s.vars[v]? with
    | none => rfl
    | some w =>
      have hw := hin w (List.mem_of_getElem? hv)
      simp only [Option.map_some, places_get, at', bind, Except.bind]
      by_cases h : i < w.len
      · simp only [if_pos h, raw_ok h hw]
        exact ⟨⟨hin, hb⟩, by simp only [abs]; rw [look_one (by omega)]⟩
      · simp only [if_neg h]
  | write v i x =>
    simp only [Slc.step, Spec.Win.step, var]
    cases hv : s.vars[v]? with
    | none => rfl
    | some w =>
      have hw := hin w (List.mem_of_getElem? hv)
      simp only [Option.map_some, places_get, Slc.set, bind, Except.bind]
      by_cases h : i < w.len
      · simp only [if_pos h, if_pos (show w.off + i < s.mem.length by omega)]
        exact ⟨⟨fun y hy => by simpa using hin y hy, by simpa using hb⟩, rfl⟩
      · simp only [if_neg h]
  | front v =>
    simp only [Slc.step, Spec.Win.step, var]
    cases hv : s.vars[v]? with
    | none => rfl
    | some w =>
      have hw := hin w (List.mem_of_getElem? hv)
      simp only [Option.map_some, List.head?_eq_getElem?, places_get, front, bind, Except.bind]
      by_cases h : 0 < w.len
      · simp only [if_pos h, raw_ok h hw]
        exact ⟨⟨hin, hb⟩, by simp only [abs]; rw [look_one (by omega)]⟩
      · simp only [if_neg h]
  | back v =>
    simp only [Slc.step, Spec.Win.step, var]
    cases hv : s.vars[v]? with
    | none => rfl
    | some w =>
      have hw := hin w (List.mem_of_getElem? hv)
      have hl : (places w).length = w.len := by simp [places]
      simp only [Option.map_some, List.getLast?_eq_getElem?, places_get, hl, back, bind, Except.bind]
      by_cases h : 0 < w.len
      · have e : wsub w.len 1 = w.len - 1 := by unfold wsub; omega
        simp only [if_pos h, e, if_pos (show w.len - 1 < w.len by omega), raw_ok (show w.len - 1 < w.len by omega) hw]
        exact ⟨⟨hin, hb⟩, by simp only [abs]; rw [look_one (by omega)]⟩
      · simp only [if_neg h, if_neg (show ¬ w.len - 1 < w.len by omega)]
  | all v =>
    simp only [Slc.step, Spec.Win.step, var]
    cases hv : s.vars[v]? with
    | none => rfl
    | some w =>
      have hw := hin w (List.mem_of_getElem? hv)
      simp only [Option.map_some, iter_ok s.mem w.len w.off hw, bind, Except.bind]
      exact ⟨⟨hin, hb⟩, rfl⟩

theorem run_refines : ∀ (p : List (Op α)) {s : St α}, Ok s → (∀ o ∈ p, Fits o) →
    (Slc.run s p).map abs = Spec.Win.run (abs s) p
  | [], _, _, _ => rfl
  | o :: p, s, hs, hf => by
    have h := step_refines hs o (hf o (.head _))
    unfold Slc.run Spec.Win.run
    cases e : Slc.step s o with
    | error x => rw [e] at h; simp only at h; rw [h]; rfl
    | ok s' =>
      rw [e] at h
      obtain ⟨h1, h2⟩ := h
      rw [h2]
      exact run_refines p h1 fun o ho => hf o (.tail _ ho)

theorem run_ok : ∀ (p : List (Op α)) {s s' : St α}, Ok s → (∀ o ∈ p, Fits o) → Slc.run s p = .ok s' → Ok s'
  | [], _, _, hs, _, h => by cases h; exact hs
  | o :: p, s, s', hs, hf, h => by
    have g := step_refines hs o (hf o (.head _))
    unfold Slc.run at h
    cases e : Slc.step s o with
    | error x => rw [e] at h; cases h
    | ok s1 => rw [e] at h g; exact run_ok p g.1 (fun o ho => hf o (.tail _ ho)) h

theorem rstep_eq (s : List (Option Nat) × List Nat) (o : ROp) (h : NoSelf o) : Slc.rstep s o = Spec.Win.rstep s o := by
  cases o with
  | moveNew y =>
    unfold Slc.rstep Spec.Win.rstep
    dsimp only
    cases hy : s.1[y]? with
    | none => rfl
    | some a =>
      have : y < s.1.length := (List.getElem?_eq_some_iff.mp hy).1
      dsimp only
      rw [List.set_append_left _ _ this]
  | moveTo x y =>
    unfold Slc.rstep Spec.Win.rstep
    dsimp only
    have e : ∀ a, (s.1.set x a).set y none = (s.1.set y none).set x a := fun a => List.set_comm _ _ (show x ≠ y from h)
    simp only [e]
    cases s.1[x]? <;> cases s.1[y]? <;> rfl
  | _ => rfl

end Rpp.Slc
