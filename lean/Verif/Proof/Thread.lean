import Verif.Spec.Thread
import Verif.Proof.Sched

namespace Rpp
namespace Thr

/-- How many variables hold thread `i`. -/
def cnt (vars : List (Option (Option Nat))) (i : Nat) : Nat := vars.count (some (some i))

/-- One if thread `i` is still to be joined or detached. -/
def need (os : List Os) (i : Nat) : Nat :=
  match os[i]? with
  | some ⟨_, .joinable⟩ => 1
  | _ => 0

/-- Is this variable's content a handle of thread `i`? -/
def isH (x : Option (Option Nat)) (i : Nat) : Nat := if x = some (some i) then 1 else 0

theorem cnt_set {vars : List (Option (Option Nat))} {v : Nat} {x : Option (Option Nat)}
    (h : vars[v]? = some x) (y : Option (Option Nat)) (i : Nat) :
    cnt (vars.set v y) i + isH x i = cnt vars i + isH y i := by
  induction vars generalizing v with
  | nil => simp at h
  | cons a r ih =>
    cases v with
    | zero =>
      simp at h; subst h
      simp only [cnt, isH, List.set_cons_zero, List.count_cons, beq_iff_eq]
      omega
    | succ v =>
      have := ih (v := v) (by simpa using h)
      simp only [cnt, List.set_cons_succ, List.count_cons] at this ⊢
      omega

theorem cnt_append (vars : List (Option (Option Nat))) (y : Option (Option Nat)) (i : Nat) :
    cnt (vars ++ [y]) i = cnt vars i + isH y i := by
  simp [cnt, isH, List.count_append, List.count_singleton]

theorem cnt_pos {vars : List (Option (Option Nat))} {v i : Nat} (h : vars[v]? = some (some (some i))) :
    0 < cnt vars i := List.count_pos_iff.2 (List.mem_of_getElem? h)

/-- Each thread to be joined or detached is in one variable, the others in none; those joined have ended. -/
structure Inv (s : St) : Prop where
  own : ∀ i, cnt s.vars i = need s.os i
  ended : ∀ (i : Nat) (o : Os), s.os[i]? = some o → o.own = .joined → o.ended = true

theorem init_inv : Inv St.init := ⟨fun i => by simp [St.init, cnt, need], fun i o h => by simp [St.init] at h⟩

theorem get_ok {s : St} {v : Nat} {h : Option Nat} (e : s.get v = .ok h) : s.vars[v]? = some (some h) := by
  unfold St.get at e
  split at e
  · cases e; assumption
  · cases e

/-- A thread in a variable may be joined. -/
theorem Inv.joinable {s : St} (I : Inv s) {v i : Nat} (h : s.vars[v]? = some (some (some i))) :
    ∃ e, s.os[i]? = some ⟨e, .joinable⟩ := by
  have h1 := cnt_pos h
  rw [I.own i] at h1
  unfold need at h1
  split at h1
  · exact ⟨_, by assumption⟩
  · omega

theorem need_set {os : List Os} {j : Nat} {o : Os} (h : os[j]? = some o) (o' : Os) (i : Nat) :
    need (os.set j o') i = if i = j then (if o'.own = .joinable then 1 else 0) else need os i := by
  have hl : j < os.length := (List.getElem?_eq_some_iff.1 h).1
  unfold need
  by_cases e : i = j
  · subst e
    rw [List.getElem?_set_self hl, if_pos rfl]
    obtain ⟨a, b⟩ := o'
    cases b <;> simp
  · rw [List.getElem?_set_ne (fun c => e c.symm), if_neg e]

/-- Joining or detaching the thread in variable `v`, and making the variable null. -/
theorem Inv.release {s : St} (I : Inv s) {v i : Nat} {e : Bool} (h : s.vars[v]? = some (some (some i)))
    (ho : s.os[i]? = some ⟨e, .joinable⟩) (w : Own) (hw : w ≠ .joinable) (he : w = .joined → e = true) :
    Inv ⟨s.vars.set v (some none), s.os.set i ⟨e, w⟩⟩ := by
  constructor
  · intro k
    have h1 := cnt_set h (some none) k
    have h2 := I.own k
    dsimp only
    rw [need_set ho]
    have h3 : need s.os i = 1 := by unfold need; rw [ho]
    by_cases c : k = i
    · subst c
      simp only [isH, if_true, if_neg hw] at h1 ⊢
      simp at h1
      omega
    · have c' : ¬ i = k := fun q => c q.symm
      simp [isH, c, c'] at h1 ⊢
      omega
  · intro k o hk hj
    dsimp only at hk
    have hl : i < s.os.length := (List.getElem?_eq_some_iff.1 ho).1
    by_cases c : k = i
    · subst c
      rw [List.getElem?_set_self hl] at hk
      cases hk
      exact he hj
    · rw [List.getElem?_set_ne (fun q => c q.symm)] at hk
      exact I.ended k o hk hj

theorem dtor_inv {s : St} (I : Inv s) {v : Nat} {h : Option Nat} (hv : s.vars[v]? = some (some h)) :
    dtor s v h = .ok none ∨
      ∃ s', dtor s v h = .ok (some s') ∧ Inv s' ∧ s'.vars = s.vars.set v (some none) := by
  cases h with
  | none =>
    refine .inr ⟨s, rfl, I, ?_⟩
    obtain ⟨hl, he⟩ := List.getElem?_eq_some_iff.1 hv
    rw [← he, List.set_getElem_self]
  | some i =>
    obtain ⟨e, ho⟩ := I.joinable hv
    unfold dtor sysJoin
    dsimp only
    rw [ho]
    cases e with
    | false => exact .inl rfl
    | true => exact .inr ⟨_, rfl, I.release hv ho .joined (by simp) (fun _ => rfl), rfl⟩

theorem get_of {s : St} {v : Nat} {h : Option Nat} (e : s.vars[v]? = some (some h)) : s.get v = .ok h := by
  unfold St.get; rw [e]

theorem set_isSome {vars : List (Option (Option Nat))} {w : Nat} {h : Option Nat}
    (hw : vars[w]? = some (some h)) (v : Nat) : ∃ g, (vars.set v (some none))[w]? = some (some g) := by
  have hl : w < vars.length := (List.getElem?_eq_some_iff.1 hw).1
  by_cases c : v = w
  · subst c; exact ⟨none, List.getElem?_set_self hl⟩
  · exact ⟨h, by rw [List.getElem?_set_ne c]; exact hw⟩

theorem step_inv {s : St} {e : Ev} (I : Inv s) (ha : Allowed s e) : ∃ s', step s e = .ok s' ∧ Inv s' := by
  cases e with
  | fin i =>
    unfold step
    dsimp only
    split
    · rename_i o ho
      refine ⟨_, rfl, ⟨fun k => ?_, fun k o' hk hj => ?_⟩⟩
      · rw [need_set ho, I.own k]
        by_cases c : k = i
        · subst c
          unfold need
          rw [ho]
          obtain ⟨a, b⟩ := o
          cases b <;> simp
        · simp [c]
      · dsimp only at hk
        have hl : i < s.os.length := (List.getElem?_eq_some_iff.1 ho).1
        by_cases c : k = i
        · subst c
          rw [List.getElem?_set_self hl] at hk
          cases hk
          rfl
        · rw [List.getElem?_set_ne (fun q => c q.symm)] at hk
          exact I.ended k o' hk hj
    · exact ⟨s, rfl, I⟩
  | null =>
    refine ⟨_, rfl, ⟨fun k => ?_, I.ended⟩⟩
    dsimp only
    rw [cnt_append, I.own k]
    simp [isH]
  | start =>
    refine ⟨_, rfl, ⟨fun k => ?_, fun k o hk hj => ?_⟩⟩
    · dsimp only
      rw [cnt_append, I.own k]
      unfold need isH
      by_cases c : k = s.os.length
      · subst c; simp
      · have c' : ¬ s.os.length = k := fun q => c q.symm
        by_cases l : k < s.os.length
        · rw [List.getElem?_append_left l]; simp [c']
        · have h1 : s.os[k]? = none := List.getElem?_eq_none (by omega)
          have h2 : (s.os ++ [(⟨false, .joinable⟩ : Os)])[k]? = none :=
            List.getElem?_eq_none (by simp; omega)
          rw [h1, h2]; simp [c']
    · dsimp only at hk
      by_cases l : k < s.os.length
      · rw [List.getElem?_append_left l] at hk
        exact I.ended k o hk hj
      · rw [List.getElem?_append_right (by omega)] at hk
        have := List.mem_of_getElem? hk
        simp at this
        subst this
        cases hj
  | move v =>
    obtain ⟨h, hv⟩ := ha
    unfold step
    dsimp only
    rw [get_of hv]
    refine ⟨_, rfl, ⟨fun k => ?_, I.ended⟩⟩
    dsimp only
    rw [cnt_append, ← I.own k]
    have := cnt_set hv (some none) k
    have h0 : isH (some none) k = 0 := by simp [isH]
    omega
  | assign v w =>
    obtain ⟨⟨h, hv⟩, ⟨g, hw⟩⟩ := ha
    unfold step
    dsimp only
    rw [get_of hv, get_of hw]
    rcases dtor_inv I hv with h1 | ⟨s1, h1, I1, h2⟩
    · exact ⟨s, by simp only [h1, bind, Except.bind], I⟩
    · obtain ⟨g', hg⟩ := set_isSome hw v
      rw [← h2] at hg
      refine ⟨{ s1 with vars := (s1.vars.set v (some g')).set w (some none) },
        by simp only [h1, get_of hg, bind, Except.bind], ⟨fun k => ?_, I1.ended⟩⟩
      dsimp only
      rw [← I1.own k]
      have hl : v < s.vars.length := (List.getElem?_eq_some_iff.1 hv).1
      have hv1 : s1.vars[v]? = some (some none) := by rw [h2]; exact List.getElem?_set_self hl
      have h3 := cnt_set hv1 (some g') k
      have hw1 : (s1.vars.set v (some g'))[w]? = some (some g') := by
        by_cases c : v = w
        · subst c; exact List.getElem?_set_self (by rw [h2]; simpa using hl)
        · rw [List.getElem?_set_ne c]; exact hg
      have h4 := cnt_set hw1 (some none) k
      have h0 : isH (some none) k = 0 := by simp [isH]
      omega
  | join v =>
    obtain ⟨i, hv⟩ := ha
    unfold step
    dsimp only
    rw [get_of hv]
    rcases dtor_inv I hv with h1 | ⟨s1, h1, I1, _⟩
    · exact ⟨s, by simp only [h1, bind, Except.bind], I⟩
    · exact ⟨s1, by simp only [h1, bind, Except.bind], I1⟩
  | detach v =>
    obtain ⟨i, hv⟩ := ha
    obtain ⟨e, ho⟩ := I.joinable hv
    unfold step
    dsimp only
    rw [get_of hv]
    refine ⟨⟨s.vars.set v (some none), s.os.set i ⟨e, .detached⟩⟩,
      by simp only [sysDetach, ho, bind, Except.bind], I.release hv ho .detached (by simp) (by simp)⟩
  | leave v =>
    obtain ⟨h, hv⟩ := ha
    unfold step
    dsimp only
    rw [get_of hv]
    rcases dtor_inv I hv with h1 | ⟨s1, h1, I1, h2⟩
    · exact ⟨s, by simp only [h1, bind, Except.bind], I⟩
    · refine ⟨{ s1 with vars := s1.vars.set v none }, by simp only [h1, bind, Except.bind],
        ⟨fun k => ?_, I1.ended⟩⟩
      dsimp only
      rw [← I1.own k]
      have hl : v < s.vars.length := (List.getElem?_eq_some_iff.1 hv).1
      have hv1 : s1.vars[v]? = some (some none) := by rw [h2]; exact List.getElem?_set_self hl
      have h3 := cnt_set hv1 none k
      have h0 : isH (some none) k = 0 := by simp [isH]
      have h5 : isH none k = 0 := by simp [isH]
      omega

theorem get_cases (s : St) (v : Nat) : (∃ h, s.vars[v]? = some (some h)) ∨ s.get v = .error .ub := by
  cases hg : s.get v with
  | ok h => exact .inl ⟨h, get_ok hg⟩
  | error x =>
    right
    unfold St.get at hg
    split at hg <;> cases hg
    rfl

/-- What is not allowed fails. -/
theorem ok_allowed {s s' : St} {e : Ev} (h1 : step s e = .ok s') : Allowed s e := by
  cases e with
  | fin | null | start => trivial
  | move v | leave v =>
    rcases get_cases s v with q | q
    · exact q
    · simp [step, q, bind, Except.bind] at h1
  | assign v w =>
    rcases get_cases s v with q | q
    · rcases get_cases s w with q' | q'
      · exact ⟨q, q'⟩
      · obtain ⟨x, hx⟩ := q
        simp [step, get_of hx, q', bind, Except.bind] at h1
    · simp [step, q, bind, Except.bind] at h1
  | join v | detach v =>
    rcases get_cases s v with ⟨x, hx⟩ | q
    · cases x with
      | some i => exact ⟨i, hx⟩
      | none => simp [step, get_of hx, bind, Except.bind] at h1
    · simp [step, q, bind, Except.bind] at h1

theorem reach_inv : ∀ (es : List Ev) (s s' : St), Inv s → runAll step s es = .ok s' → Inv s'
  | [], s, s', I, h => by unfold runAll at h; cases h; exact I
  | e :: r, s, s', I, h => by
    unfold runAll at h
    cases h1 : step s e with
    | error x => rw [h1] at h; cases h
    | ok s1 =>
      rw [h1] at h
      obtain ⟨s2, h2, I2⟩ := step_inv I (ok_allowed h1)
      rw [h1] at h2; cases h2
      exact reach_inv r s1 s' I2 h

/-- Only `detach` detaches. -/
def NoDet (s : St) : Prop := ∀ o ∈ s.os, o.own ≠ .detached

theorem dtor_noDet {s s' : St} {v : Nat} {h : Option Nat} (N : NoDet s) (e : dtor s v h = .ok (some s')) :
    NoDet s' := by
  unfold dtor at e
  cases h with
  | none => cases e; exact N
  | some i =>
    dsimp only [bind, Except.bind] at e
    unfold sysJoin at e
    cases ho : s.os[i]? with
    | none => rw [ho] at e; cases e
    | some o =>
      rw [ho] at e
      obtain ⟨b, w⟩ := o
      cases w <;> cases b <;> simp at e
      subst e
      intro o h
      rcases List.mem_or_eq_of_mem_set h with q | q
      · exact N o q
      · subst q; simp

theorem step_noDet {s s' : St} {e : Ev} (he : ∀ v, e ≠ .detach v) (N : NoDet s) (h : step s e = .ok s') :
    NoDet s' := by
  cases e with
  | detach v => exact absurd rfl (he v)
  | fin i =>
    unfold step at h
    dsimp only at h
    split at h
    · rename_i o ho
      cases h
      intro o' h
      rcases List.mem_or_eq_of_mem_set h with q | q
      · exact N o' q
      · subst q; exact N o (List.mem_of_getElem? ho)
    · cases h; exact N
  | null => cases h; exact N
  | start =>
    cases h
    intro o h
    rcases List.mem_append.1 h with q | q
    · exact N o q
    · simp at q; subst q; simp
  | move v =>
    obtain ⟨x, hx⟩ := ok_allowed h
    simp only [step, get_of hx, bind, Except.bind] at h
    cases h; exact N
  | assign v w =>
    obtain ⟨⟨x, hx⟩, ⟨y, hy⟩⟩ := ok_allowed h
    simp only [step, get_of hx, get_of hy, bind, Except.bind] at h
    cases hd : dtor s v x with
    | error z => rw [hd] at h; cases h
    | ok z =>
      rw [hd] at h
      cases z with
      | none => cases h; exact N
      | some s1 =>
        dsimp only at h
        cases hg : s1.get w with
        | error z => rw [hg] at h; cases h
        | ok g => rw [hg] at h; cases h; exact fun o q => dtor_noDet N hd o q
  | join v =>
    obtain ⟨i, hx⟩ := ok_allowed h
    simp only [step, get_of hx, bind, Except.bind] at h
    cases hd : dtor s v (some i) with
    | error z => rw [hd] at h; cases h
    | ok z =>
      rw [hd] at h
      cases z with
      | none => cases h; exact N
      | some s1 => cases h; exact dtor_noDet N hd
  | leave v =>
    obtain ⟨x, hx⟩ := ok_allowed h
    simp only [step, get_of hx, bind, Except.bind] at h
    cases hd : dtor s v x with
    | error z => rw [hd] at h; cases h
    | ok z =>
      rw [hd] at h
      cases z with
      | none => cases h; exact N
      | some s1 => cases h; exact fun o q => dtor_noDet N hd o q

theorem reach_noDet : ∀ (es : List Ev) (s s' : St), (∀ v, Ev.detach v ∉ es) → NoDet s →
    runAll step s es = .ok s' → NoDet s'
  | [], s, s', _, N, h => by unfold runAll at h; cases h; exact N
  | e :: r, s, s', hn, N, h => by
    unfold runAll at h
    cases h1 : step s e with
    | error x => rw [h1] at h; cases h
    | ok s1 =>
      rw [h1] at h
      exact reach_noDet r s1 s' (fun v c => hn v (.tail _ c))
        (step_noDet (fun v c => hn v (c ▸ .head _)) N h1) h

end Thr
end Rpp
