import Verif.Spec.FreeListRun
import Verif.Model.Region

/-! Invariant of `Free_List`. -/

namespace Rpp.FList
open Rpp
variable {α : Type}

/-- The chain of free nodes from `p`. -/
def FSeg (mem : Nat → Option (FCell α)) : Option Nat → List Nat → Prop
  | p, [] => p = none
  | p, a :: F => p = some a ∧ ∃ n, mem a = some (.node n) ∧ FSeg mem n F

structure Inv (s : FList α) (l : List (Nat × α)) (F : List Nat) : Prop where
  seg : FSeg s.mem s.list F
  nodup : (F ++ l.map Prod.fst).Nodup
  live : ∀ p ∈ l, s.mem p.1 = some (.obj p.2)
  dom : ∀ a, s.mem a ≠ none → a ∈ F ∨ a ∈ l.map Prod.fst

theorem FSeg_congr {mem mem' : Nat → Option (FCell α)} : ∀ {p : Option Nat} {F : List Nat},
    FSeg mem p F → (∀ a ∈ F, mem' a = mem a) → FSeg mem' p F
  | _, [], h, _ => h
  | _, a :: _, ⟨h1, n, h2, h3⟩, hc =>
    ⟨h1, n, by rw [hc a List.mem_cons_self]; exact h2,
      FSeg_congr h3 (fun b hb => hc b (List.mem_cons_of_mem _ hb))⟩

theorem set_same {f : Nat → Option (FCell α)} {i : Nat} {v : Option (FCell α)} : set f i v i = v := by
  simp [set]

theorem set_ne {f : Nat → Option (FCell α)} {i j : Nat} {v : Option (FCell α)} (h : j ≠ i) :
    set f i v j = f j := by simp [set, h]

variable {s : FList α} {l : List (Nat × α)} {F : List Nat}

theorem make_ok (h : Inv s l F) {base : Nat} (hb : s.mem base = none) (v : α) :
    ∃ s' a F', make s base v = .ok (s', a) ∧ a ∉ l.map Prod.fst ∧ Inv s' ((a, v) :: l) F' ∧
      (∀ x, x ≠ a → s'.mem x = s.mem x) := by
  have hnd := h.nodup
  have hseg := h.seg
  cases F with
  | nil =>
    have hl : s.list = none := hseg
    unfold make
    rw [hl]
    have hbl : base ∉ l.map Prod.fst := by
      intro hm
      obtain ⟨p, hp, rfl⟩ := List.mem_map.mp hm
      rw [h.live p hp] at hb; cases hb
    refine ⟨_, base, [], rfl, hbl, ⟨rfl, ?_, ?_, ?_⟩, fun x hx => set_ne hx⟩
    · simp only [List.nil_append, List.map_cons, List.nodup_cons] at hnd ⊢
      exact ⟨hbl, hnd⟩
    · intro p hp
      rcases List.mem_cons.mp hp with rfl | hp
      · exact set_same
      · simp only
        rw [set_ne]
        · exact h.live p hp
        · intro e; exact hbl (e ▸ List.mem_map_of_mem hp)
    · intro a ha
      right
      by_cases e : a = base
      · rw [e]; simp
      · simp only [set_ne e] at ha
        rcases h.dom a ha with h1 | h1
        · cases h1
        · exact List.mem_cons_of_mem _ h1
  | cons a F =>
    obtain ⟨h1, n, h2, h3⟩ := hseg
    unfold make
    rw [h1]
    simp only [h2]
    rw [List.cons_append, List.nodup_cons] at hnd
    obtain ⟨n1, n2⟩ := hnd
    simp only [List.mem_append, not_or] at n1
    refine ⟨_, a, F, rfl, n1.2, ⟨?_, ?_, ?_, ?_⟩, fun x hx => set_ne hx⟩
    · refine FSeg_congr h3 (fun b hb => ?_)
      exact set_ne (fun e => n1.1 (e ▸ hb))
    · rw [List.map_cons]
      refine List.Perm.nodup_iff (List.perm_middle) |>.mpr ?_
      rw [List.nodup_cons]
      exact ⟨by simp only [List.mem_append, not_or]; exact n1, n2⟩
    · intro p hp
      rcases List.mem_cons.mp hp with rfl | hp
      · exact set_same
      · simp only
        rw [set_ne]
        · exact h.live p hp
        · intro e; exact n1.2 (e ▸ List.mem_map_of_mem hp)
    · intro b hb
      by_cases e : b = a
      · right; rw [e]; simp
      · simp only [set_ne e] at hb
        rcases h.dom b hb with h4 | h4
        · rcases List.mem_cons.mp h4 with h4 | h4
          · exact absurd h4 e
          · exact Or.inl h4
        · exact Or.inr (List.mem_cons_of_mem _ h4)

theorem destroy_ok (h : Inv s l F) {a : Nat} (ha : a ∈ l.map Prod.fst) :
    ∃ s', destroy s a = .ok s' ∧ Inv s' (l.filter (fun p => p.1 ≠ a)) (a :: F) := by
  obtain ⟨p, hp, rfl⟩ := List.mem_map.mp ha
  unfold destroy
  rw [h.live p hp]
  have hnd := h.nodup
  rw [List.nodup_append] at hnd
  obtain ⟨n1, n2, n3⟩ := hnd
  have haF : p.1 ∉ F := fun hm => n3 _ hm _ ha rfl
  have hsub : List.Sublist ((l.filter (fun q => q.1 ≠ p.1)).map Prod.fst) (l.map Prod.fst) :=
    (List.filter_sublist).map _
  refine ⟨_, rfl, ⟨⟨rfl, s.list, set_same, ?_⟩, ?_, ?_, ?_⟩⟩
  · refine FSeg_congr h.seg (fun b hb => ?_)
    exact set_ne (fun e => haF (e ▸ hb))
  · rw [List.cons_append, List.nodup_cons, List.nodup_append]
    refine ⟨?_, n1, n2.sublist hsub, fun x hx y hy => n3 x hx y (hsub.subset hy)⟩
    simp only [List.mem_append, not_or]
    refine ⟨haF, ?_⟩
    simp
  · intro q hq
    rw [List.mem_filter] at hq
    simp only
    rw [set_ne (by simpa using hq.2)]
    exact h.live q hq.1
  · intro b hb
    by_cases e : b = p.1
    · left; rw [e]; exact List.mem_cons_self
    · simp only [set_ne e] at hb
      rcases h.dom b hb with h4 | h4
      · exact Or.inl (List.mem_cons_of_mem _ h4)
      · right
        obtain ⟨q, hq, rfl⟩ := List.mem_map.mp h4
        refine List.mem_map_of_mem (List.mem_filter.mpr ⟨hq, by simpa using e⟩)

theorem clear_ok : ∀ {F : List Nat} {s : FList α}, Inv s l F → ∀ fuel, F.length < fuel →
    ∃ s', clear s fuel = .ok s' ∧ Inv s' l [] ∧ s'.returned = F.reverse ++ s.returned := by
  intro F
  induction F with
  | nil =>
    intro s h fuel hf
    cases fuel with
    | zero => cases hf
    | succ fuel =>
      have hl : s.list = none := h.seg
      unfold clear
      rw [hl]
      exact ⟨s, rfl, h, rfl⟩
  | cons a F ih =>
    intro s h fuel hf
    cases fuel with
    | zero => cases hf
    | succ fuel =>
      obtain ⟨h1, n, h2, h3⟩ := h.seg
      have hnd := h.nodup
      rw [List.cons_append, List.nodup_cons] at hnd
      obtain ⟨n1, n2⟩ := hnd
      simp only [List.mem_append, not_or] at n1
      unfold clear
      rw [h1]
      simp only [h2]
      have hI : Inv (⟨n, set s.mem a none, a :: s.returned⟩ : FList α) l F := by
        refine ⟨FSeg_congr h3 (fun b hb => set_ne (fun e => n1.1 (e ▸ hb))), n2, ?_, ?_⟩
        · intro p hp
          simp only
          rw [set_ne]
          · exact h.live p hp
          · intro e; exact n1.2 (e ▸ List.mem_map_of_mem hp)
        · intro b hb
          by_cases e : b = a
          · rw [e] at hb; simp [set_same] at hb
          · simp only [set_ne e] at hb
            rcases h.dom b hb with h4 | h4
            · rcases List.mem_cons.mp h4 with h4 | h4
              · exact absurd h4 e
              · exact Or.inl h4
            · exact Or.inr h4
      obtain ⟨s', e, i1, i2⟩ := ih hI fuel (by simp at hf; omega)
      exact ⟨s', e, i1, by rw [i2]; simp⟩

theorem clear_inv : ∀ fuel {s s' : FList α} {F : List Nat}, Inv s l F → clear s fuel = .ok s' →
    Inv s' l [] := by
  intro fuel s s' F h e
  by_cases hf : F.length < fuel
  · obtain ⟨s2, e2, i2, _⟩ := clear_ok h fuel hf
    rw [e] at e2; injection e2 with e2; rw [e2]; exact i2
  · exfalso
    induction fuel generalizing s F with
    | zero => cases e
    | succ fuel ih =>
      cases F with
      | nil => simp at hf
      | cons a F =>
        obtain ⟨h1, n, h2, h3⟩ := h.seg
        have hnd := h.nodup
        rw [List.cons_append, List.nodup_cons] at hnd
        obtain ⟨n1, n2⟩ := hnd
        simp only [List.mem_append, not_or] at n1
        unfold clear at e
        rw [h1] at e
        simp only [h2] at e
        refine ih (F := F) ⟨?_, n2, ?_, ?_⟩ e (by simp at hf; omega)
        · exact FSeg_congr h3 (fun b hb => set_ne (fun e => n1.1 (e ▸ hb)))
        · intro p hp
          simp only
          rw [set_ne]
          · exact h.live p hp
          · intro e; exact n1.2 (e ▸ List.mem_map_of_mem hp)
        · intro b hb
          by_cases e : b = a
          · rw [e] at hb; simp [set_same] at hb
          · simp only [set_ne e] at hb
            rcases h.dom b hb with h4 | h4
            · rcases List.mem_cons.mp h4 with h4 | h4
              · exact absurd h4 e
              · exact Or.inl h4
            · exact Or.inr h4

theorem Run.inv (h : Run s l) : ∃ F, Inv s l F := by
  induction h with
  | start => exact ⟨[], rfl, by simp, by simp, by simp [empty]⟩
  | @make s s' l base a v _ hb e ih =>
    obtain ⟨F, ih⟩ := ih
    obtain ⟨s2, a2, F2, e2, _, i2, _⟩ := make_ok ih hb v
    rw [e] at e2
    injection e2 with e2
    injection e2 with e3 e4
    subst e3 e4
    exact ⟨F2, i2⟩
  | @destroy s s' l a _ ha e ih =>
    obtain ⟨F, ih⟩ := ih
    obtain ⟨s2, e2, i2⟩ := destroy_ok ih ha
    rw [e] at e2; injection e2 with e2; rw [e2]; exact ⟨_, i2⟩
  | @clear s s' l fuel _ e ih =>
    obtain ⟨F, ih⟩ := ih
    exact ⟨[], clear_inv fuel ih e⟩

end Rpp.FList
