import Verif.Model.Log
import Verif.Proof.MapRun
import Mathlib.Data.List.Nodup

/-!
# Log subscribers: helper lemmas
-/

namespace Rpp.Log

open Rpp.Spec Rpp.Spec.Log

variable {C M : Type}

structure Inv (H : Nat → Nat) (lim : Nat) (s : Log.St C) (a : Spec.Log.St C) (n : Nat) : Prop where
  map : Map.Inv H lim s.callbacks
  abs : ∀ t c, Map.abs s.callbacks t = some c ↔ (t, c) ∈ a.subs
  nodup : (a.subs.map (·.1)).Nodup
  cnt : (Map.slots s.callbacks.data).length = s.callbacks.len
  len : s.callbacks.len ≤ n
  next : s.next = n + 1
  used : ∀ t ∈ a.used, t < s.next
  sub : ∀ x ∈ a.subs, x.1 ∈ a.used

theorem init_inv (H : Nat → Nat) (lim : Nat) : Inv (C := C) H lim {} {} 0 := by
  refine ⟨Map.Inv.nil H lim, ?_, by simp, rfl, Nat.le_refl _, rfl, by simp, by simp⟩
  intro t c
  simp [Map.abs, Map.nil, Map.slots, Map.lk]

theorem subs_perm {H : Nat → Nat} {lim : Nat} {s : Log.St C} {a : Spec.Log.St C} {n : Nat} (h : Inv H lim s a n) :
    ((Map.slots s.callbacks.data).map (fun x => (x.key, x.val))).Perm a.subs := by
  obtain ⟨h1, h2⟩ := Map.lists_of h.map
  have hn1 : ((Map.slots s.callbacks.data).map (fun x => (x.key, x.val))).Nodup := List.Nodup.of_map _ h1
  have hn2 : a.subs.Nodup := List.Nodup.of_map _ h.nodup
  rw [List.perm_ext_iff_of_nodup hn1 hn2]
  rintro ⟨t, c⟩
  rw [h2, h.abs]

theorem deliver_ok (again : C → Bool) (m : M) : ∀ l : List (Nat × C), (∀ x ∈ l, again x.2 = false) →
    deliver again m l = .ok (l.map fun x => (x.2, m))
  | [], _ => rfl
  | (t, c) :: l, h => by
    unfold deliver
    rw [if_neg (by simp [h (t, c) (.head _)]), deliver_ok again m l (fun x hx => h x (.tail _ hx))]
    rfl

theorem deliver_hang (again : C → Bool) (m : M) : ∀ l : List (Nat × C), (∃ x ∈ l, again x.2 = true) →
    deliver again m l = .error .hang
  | [], h => by simp at h
  | (t, c) :: l, h => by
    unfold deliver
    by_cases ha : again c = true
    · rw [if_pos ha]
    · rw [if_neg ha, deliver_hang again m l]
      obtain ⟨x, hx, hx2⟩ := h
      cases hx with
      | head => exact absurd hx2 ha
      | tail _ hx => exact ⟨x, hx, hx2⟩

theorem output_ok {H : Nat → Nat} {lim : Nat} {s : Log.St C} {a : Spec.Log.St C} {n : Nat} (h : Inv H lim s a n)
    (again : C → Bool) (m : M) (ha : ∀ x ∈ a.subs, again x.2 = false) :
    ∃ l, output again m s = .ok l ∧ l.Perm (a.subs.map fun x => (x.2, m)) := by
  have hp := subs_perm h
  refine ⟨_, ?_, hp.map _⟩
  unfold output
  rw [Map.iter_ok h.map]
  exact deliver_ok again m _ (fun x hx => ha x (hp.mem_iff.1 hx))

theorem output_hang {H : Nat → Nat} {lim : Nat} {s : Log.St C} {a : Spec.Log.St C} {n : Nat} (h : Inv H lim s a n)
    (again : C → Bool) (m : M) (ha : ∃ x ∈ a.subs, again x.2 = true) : output again m s = .error .hang := by
  have hp := subs_perm h
  unfold output
  rw [Map.iter_ok h.map]
  obtain ⟨x, hx, hx2⟩ := ha
  exact deliver_hang again m _ ⟨x, hp.mem_iff.2 hx, hx2⟩

theorem subscribe_ok {H : Nat → Nat} (hH : ∀ t, H t < 2 ^ 64) {lim : Nat} (hlim : lim < 2 ^ 62) {s : Log.St C}
    {a : Spec.Log.St C} {n : Nat} (h : Inv H lim s a n) (hn : 3 * n + 32 ≤ lim) (c : C) :
    ∃ s', subscribe H lim c s = .ok (n + 1, s') ∧ n + 1 ∉ a.used ∧
      Inv H lim s' ⟨a.subs ++ [(n + 1, c)], a.used ++ [n + 1]⟩ (n + 1) := by
  have hnew : n + 1 ∉ a.used := fun hx => by have := h.used _ hx; have := h.next; omega
  have hnone : Map.abs s.callbacks s.next = none := by
    cases hx : Map.abs s.callbacks s.next with
    | none => rfl
    | some d =>
      have := h.sub _ ((h.abs _ _).1 hx)
      rw [h.next] at this
      exact absurd this hnew
  have hlen := h.len
  rcases Map.insert_ok ⟨hH⟩ hlim h.map s.next c with ⟨hq, _⟩ | ⟨m', i, e, i1, i2, _, i4, i5⟩
  · omega
  · refine ⟨{ next := wadd s.next 1, callbacks := m' }, ?_, hnew, ⟨i1, ?_, ?_, ?_, ?_, ?_, ?_, ?_⟩⟩
    · unfold subscribe
      rw [e, h.next]
    · intro t d
      dsimp only
      rw [i2]
      unfold FMap.put
      rw [List.mem_append, List.mem_singleton]
      by_cases c1 : s.next = t
      · rw [if_pos c1]
        constructor
        · intro hx
          cases hx
          exact .inr (by rw [← c1, h.next])
        · rintro (hx | hx)
          · rw [← c1] at hx
            rw [(h.abs _ _).2 hx] at hnone
            cases hnone
          · cases hx; rfl
      · rw [if_neg c1, h.abs]
        constructor
        · exact .inl
        · rintro (hx | hx)
          · exact hx
          · cases hx
            exact absurd h.next c1
    · rw [List.map_append, List.nodup_append]
      refine ⟨h.nodup, by simp, ?_⟩
      intro t ht t' ht' he
      simp at ht'
      rw [List.mem_map] at ht
      obtain ⟨x, hx, rfl⟩ := ht
      have := h.sub x hx
      rw [he, ht'] at this
      exact hnew this
    · rw [i5, if_pos hnone, i4, h.cnt]
    · dsimp only
      omega
    · dsimp only
      rw [h.next]
      unfold wadd
      omega
    · intro t ht
      dsimp only
      have hnx : wadd s.next 1 = n + 2 := by rw [h.next]; unfold wadd; omega
      rw [hnx]
      rcases List.mem_append.1 ht with ht | ht
      · have := h.used t ht
        have := h.next
        omega
      · simp at ht
        omega
    · intro x hx
      rcases List.mem_append.1 hx with hx | hx
      · exact List.mem_append.2 (.inl (h.sub x hx))
      · rw [List.mem_singleton] at hx
        subst hx
        simp

theorem unsubscribe_hang {H : Nat → Nat} (hH : ∀ t, H t < 2 ^ 64) {lim : Nat} {s : Log.St C} {a : Spec.Log.St C} {n : Nat}
    (h : Inv H lim s a n) {t : Nat} (ht : t ∉ a.subs.map (·.1)) : unsubscribe H t s = .error .hang := by
  have hnone : Map.abs s.callbacks t = none := by
    cases hx : Map.abs s.callbacks t with
    | none => rfl
    | some d => exact absurd (List.mem_map.2 ⟨_, (h.abs _ _).1 hx, rfl⟩) ht
  obtain ⟨m', e, _⟩ := Map.try_erase_ok ⟨hH⟩ h.map t
  rw [hnone] at e
  unfold unsubscribe Map.erase
  rw [e]
  rfl

theorem unsubscribe_ok {H : Nat → Nat} (hH : ∀ t, H t < 2 ^ 64) {lim : Nat} {s : Log.St C} {a : Spec.Log.St C} {n : Nat}
    (h : Inv H lim s a n) {t : Nat} (ht : t ∈ a.subs.map (·.1)) :
    ∃ s', unsubscribe H t s = .ok s' ∧ Inv H lim s' ⟨a.subs.filter (·.1 ≠ t), a.used⟩ n := by
  rw [List.mem_map] at ht
  obtain ⟨⟨t', c⟩, hx, rfl⟩ := ht
  have hsome := (h.abs _ _).2 hx
  obtain ⟨m', e, i1, i2, i3, i4⟩ := Map.try_erase_ok ⟨hH⟩ h.map t'
  rw [hsome] at e
  rw [if_neg (by rw [hsome]; simp)] at i3 i4
  have habs : ∀ t d, Map.abs m' t = some d ↔ (t, d) ∈ a.subs.filter (·.1 ≠ t') := by
    intro t d
    rw [i2]
    unfold FMap.del
    rw [List.mem_filter]
    by_cases c1 : t' = t
    · rw [if_pos c1]
      simp [c1]
    · rw [if_neg c1, h.abs]
      constructor
      · intro hx; exact ⟨hx, by simpa using fun he => c1 he.symm⟩
      · exact fun hx => hx.1
  have hcnt := h.cnt
  have hlen := h.len
  have hnodup : ((a.subs.filter (·.1 ≠ t')).map (·.1)).Nodup :=
    h.nodup.sublist (List.Sublist.map _ List.filter_sublist)
  have hsub : ∀ x ∈ a.subs.filter (·.1 ≠ t'), x.1 ∈ a.used := fun x hx => h.sub x (List.mem_filter.1 hx).1
  refine ⟨{ s with callbacks := if m'.isEmpty then Map.nil else m' }, ?_, ?_⟩
  · unfold unsubscribe Map.erase
    rw [e]
    rfl
  · by_cases c0 : m'.isEmpty = true
    · have hz : m'.len = 0 := by simpa [Map.isEmpty] using c0
      have hnone : ∀ t d, (t, d) ∉ a.subs.filter (·.1 ≠ t') := by
        intro t d hd
        rw [← habs, Map.len_zero i1 hz t] at hd
        cases hd
      refine ⟨?_, ?_, hnodup, ?_, ?_, h.next, h.used, hsub⟩
      · dsimp only; rw [if_pos c0]; exact Map.Inv.nil H lim
      · intro t d
        dsimp only
        rw [if_pos c0]
        constructor
        · intro hx; simp [Map.abs, Map.nil, Map.slots, Map.lk] at hx
        · intro hx; exact absurd hx (hnone t d)
      · dsimp only; rw [if_pos c0]; rfl
      · dsimp only; rw [if_pos c0]; exact Nat.zero_le _
    · refine ⟨?_, ?_, hnodup, ?_, ?_, h.next, h.used, hsub⟩
      · dsimp only; rw [if_neg c0]; exact i1
      · dsimp only; rw [if_neg c0]; exact habs
      · dsimp only; rw [if_neg c0]; omega
      · dsimp only; rw [if_neg c0]; omega

theorem run_ok {H : Nat → Nat} (hH : ∀ t, H t < 2 ^ 64) {lim : Nat} (hlim : lim < 2 ^ 62) (again : C → Bool) :
    ∀ (ops : List (Op C M)) (s : Log.St C) (a : Spec.Log.St C) (n : Nat), Inv H lim s a n →
      3 * (n + ops.length) + 32 ≤ lim →
      (∃ outs a', run H lim again s ops = (outs, none) ∧ Runs a ops outs a' ∧
        ∀ pre op post o' b, ops = pre ++ op :: post → Runs a pre (outs.take pre.length) b → o' = op → ¬ Bad again b o') ∨
      (∃ outs a' pre op post, run H lim again s ops = (outs, some .hang) ∧ ops = pre ++ op :: post ∧
        Runs a pre outs a' ∧ Bad again a' op)
  | [], s, a, n, _, _ => .inl ⟨[], a, rfl, .nil a, by intro pre op post o' b h; simp at h⟩
  | .subscribe c :: ops, s, a, n, h, hn => by
    simp only [List.length_cons] at hn
    obtain ⟨s', e, hnew, h'⟩ := subscribe_ok hH hlim h (by omega) c
    have ih := run_ok hH hlim again ops s' _ _ h' (by omega)
    simp only [run, step, e]
    rcases ih with ⟨outs, a', e', r, hb⟩ | ⟨outs, a', pre, op, post, e', ho, r, ht⟩
    · rw [e']
      refine .inl ⟨_, a', rfl, .subscribe c _ hnew r, ?_⟩
      intro pre op post o' b hp hr ho hbad
      cases pre with
      | nil =>
        simp at hp
        obtain ⟨rfl, _⟩ := hp
        subst ho
        cases hbad
      | cons p pre =>
        simp at hp
        obtain ⟨rfl, hp⟩ := hp
        simp only [List.length_cons, List.take_succ_cons] at hr
        cases hr with
        | subscribe _ _ _ hr => exact hb pre op post o' b hp hr ho hbad
    · rw [e']
      exact .inr ⟨_, a', _ :: pre, op, post, rfl, by rw [ho]; rfl, .subscribe c _ hnew r, ht⟩
  | .unsubscribe t :: ops, s, a, n, h, hn => by
    simp only [List.length_cons] at hn
    by_cases ht : t ∈ a.subs.map (·.1)
    · obtain ⟨s', e, h'⟩ := unsubscribe_ok hH h ht
      have ih := run_ok hH hlim again ops s' _ _ h' (by omega)
      simp only [run, step, e]
      rcases ih with ⟨outs, a', e', r, hb⟩ | ⟨outs, a', pre, op, post, e', ho, r, hbad⟩
      · rw [e']
        refine .inl ⟨_, a', rfl, .unsubscribe t ht r, ?_⟩
        intro pre op post o' b hp hr ho hbad
        cases pre with
        | nil =>
          simp at hp hr
          obtain ⟨rfl, _⟩ := hp
          subst ho
          cases hr
          cases hbad with
          | unknown _ hx => exact hx ht
        | cons p pre =>
          simp at hp
          obtain ⟨rfl, hp⟩ := hp
          simp only [List.length_cons, List.take_succ_cons] at hr
          cases hr with
          | unsubscribe _ _ hr => exact hb pre op post o' b hp hr ho hbad
      · rw [e']
        exact .inr ⟨_, a', _ :: pre, op, post, rfl, by rw [ho]; rfl, .unsubscribe t ht r, hbad⟩
    · refine .inr ⟨[], a, [], _, ops, ?_, rfl, .nil a, .unknown t ht⟩
      simp only [run, step, unsubscribe_hang hH h ht]
  | .message m :: ops, s, a, n, h, hn => by
    simp only [List.length_cons] at hn
    by_cases ha : ∃ x ∈ a.subs, again x.2 = true
    · have e := output_hang h again m ha
      obtain ⟨x, hx, hx2⟩ := ha
      refine .inr ⟨[], a, [], _, ops, ?_, rfl, .nil a, .again m x hx hx2⟩
      simp only [run, step, e]
    · have ha' : ∀ x ∈ a.subs, again x.2 = false := fun x hx => by
        cases hc : again x.2 with
        | false => rfl
        | true => exact absurd ⟨x, hx, hc⟩ ha
      obtain ⟨l, e, hp⟩ := output_ok h again m ha'
      have ih := run_ok hH hlim again ops s _ _ h (by omega)
      simp only [run, step, e]
      rcases ih with ⟨outs, a', e', r, hb⟩ | ⟨outs, a', pre, op, post, e', ho, r, hbad⟩
      · rw [e']
        refine .inl ⟨_, a', rfl, .message m l hp r, ?_⟩
        intro pre op post o' b hp' hr ho hbad
        cases pre with
        | nil =>
          simp at hp' hr
          obtain ⟨rfl, _⟩ := hp'
          subst ho
          cases hr
          cases hbad with
          | again _ x hx hx2 => exact ha ⟨x, hx, hx2⟩
        | cons p pre =>
          simp at hp'
          obtain ⟨rfl, hp'⟩ := hp'
          simp only [List.length_cons, List.take_succ_cons] at hr
          cases hr with
          | message _ _ _ hr => exact hb pre op post o' b hp' hr ho hbad
      · rw [e']
        exact .inr ⟨_, a', _ :: pre, op, post, rfl, by rw [ho]; rfl, .message m l hp r, hbad⟩

end Rpp.Log
