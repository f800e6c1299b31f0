import Verif.Model.RangeOwner
import Verif.Proof.RangeRun

namespace Rpp.RA
open Rpp

variable {B bias : Nat}

theorem resetBucket_ok : ∀ (l : List Nat) (s : RA) (fuel : Nat) (p : Option Nat),
    Seg FB.nx FB.pv (Fv B bias s) p l none → l.Nodup → l.length < fuel →
    ∃ s', s.resetBucket fuel l.head? = .ok s' ∧ s'.heads = s.heads ∧ s'.fresh = s.fresh ∧
      s'.pool = l.reverse ++ s.pool ∧ ∀ j, s'.mem j = if j ∈ l then none else s.mem j := by
  intro l
  induction l with
  | nil =>
    intro s fuel p _ _ hf
    cases fuel with
    | zero => simp at hf
    | succ fuel => exact ⟨s, rfl, rfl, rfl, rfl, fun j => by simp⟩
  | cons a l ih =>
    intro s fuel p hs hn hf
    cases fuel with
    | zero => simp at hf
    | succ fuel =>
      obtain ⟨⟨b, h1, h2, h3⟩, h4⟩ := hs
      obtain ⟨blk, m1, m2, m3⟩ := Fv_some h1
      have hnx : blk.nextF = l.head? := by rw [m3] at h3; simpa using h3
      have hd : s.destroy a = .ok { s with mem := upd s.mem a none, pool := a :: s.pool } := by
        unfold RA.destroy; rw [m1]
      obtain ⟨ha, hn⟩ := List.nodup_cons.1 hn
      have hs' : Seg FB.nx FB.pv (Fv B bias { s with mem := upd s.mem a none, pool := a :: s.pool })
          (some a) l none := by
        refine Seg_congr h4 (fun x hx => ?_)
        have : x ≠ a := fun c => ha (c ▸ hx)
        unfold Fv
        dsimp only
        rw [upd_ne _ _ this]
        exact fun r hr => ⟨r, hr, rfl, rfl⟩
      obtain ⟨s', e, q1, q2, q3, q4⟩ := ih _ fuel (some a) hs' hn (by simp at hf; omega)
      refine ⟨s', ?_, q1, q2, ?_, fun j => ?_⟩
      · rw [← e, List.head?_cons, resetBucket]
        simp only [rd_ok m1, hd, bind, Except.bind, hnx]
      · rw [q3]; simp
      · rw [q4]
        by_cases c : j = a
        · subst c; simp [ha, upd]
        · simp [c, upd]

/-- Nothing to give back: all buckets are empty. -/
theorem reset_none : ∀ (n i : Nat) (s : RA), (∀ k, s.heads k = none) →
    ∃ s', s.reset n i = .ok s' ∧ s'.pool = s.pool := by
  intro n
  induction n with
  | zero => intro i s _; exact ⟨s, rfl, rfl⟩
  | succ n ih =>
    intro i s h
    obtain ⟨s', e, hp⟩ := ih (i + 1) { s with heads := upd s.heads i none } (by
      intro k
      dsimp only
      by_cases hk : k = i
      · subst hk; simp [upd]
      · simp [upd, hk, h k])
    refine ⟨s', ?_, hp⟩
    rw [reset, h i]
    exact e

theorem reset_ok {F : Nat → List Nat} : ∀ (n i : Nat) (s s0 : RA),
    FreeInv (Fv B bias s0) s0.heads s0.st.bucket_sizes F → s.fresh = s0.fresh →
    (∀ j x, x ∈ F j → x < s0.fresh) →
    (∀ k, i ≤ k → s.heads k = s0.heads k) → (∀ k, i ≤ k → ∀ x ∈ F k, s.mem x = s0.mem x) →
    ∃ s', s.reset n i = .ok s' ∧ s'.fresh = s.fresh ∧
      ∃ l, l.Nodup ∧ s'.pool = l ++ s.pool ∧ (∀ x, x ∈ l ↔ ∃ k, i ≤ k ∧ k < i + n ∧ x ∈ F k) ∧
        ∀ j, s'.mem j = if j ∈ l then none else s.mem j := by
  intro n
  induction n with
  | zero =>
    intro i s s0 _ _ _ _ _
    exact ⟨s, rfl, rfl, [], by simp, rfl, by simp; omega, by simp⟩
  | succ n ih =>
    intro i s s0 hF hfr hlt hh hm
    have hseg : Seg FB.nx FB.pv (Fv B bias s) none (F i) none := by
      refine Seg_congr (hF.seg i) (fun x hx => ?_)
      unfold Fv
      rw [hm i (by omega) x hx]
      exact fun r hr => ⟨r, hr, rfl, rfl⟩
    have hlen := nodup_bound (hF.nodup i) (hlt i)
    obtain ⟨s1, e1, q1, q2, q3, q4⟩ := resetBucket_ok (F i) s (s.fresh + 1) none hseg (hF.nodup i) (by omega)
    have huniq : ∀ x k, x ∈ F i → x ∈ F k → i = k := by
      intro x k hi hj
      obtain ⟨r1, u1, u2⟩ := (hF.mem x i).mp hi
      obtain ⟨r2, u3, u4⟩ := (hF.mem x k).mp hj
      rw [u1] at u3; injection u3 with u3
      rw [← u2, u3, u4]
    obtain ⟨s2, e2, p1, l, p2, p3, p4, p5⟩ := ih (i + 1) { s1 with heads := upd s1.heads i none } s0 hF
      (by dsimp only; rw [q2, hfr]) hlt
      (fun k hk => by
        dsimp only
        rw [upd_ne _ _ (by omega), q1, hh k (by omega)])
      (fun k hk x hx => by
        dsimp only
        rw [q4, if_neg, hm k (by omega) x hx]
        intro c
        have := huniq x k c hx
        omega)
    refine ⟨s2, ?_, by rw [p1]; exact q2, l ++ (F i).reverse, ?_, ?_, ?_, ?_⟩
    · rw [reset, hh i (by omega), hF.head i]
      simp only [e1, bind, Except.bind]
      exact e2
    · rw [List.nodup_append]
      refine ⟨p2, List.nodup_reverse.2 (hF.nodup i), ?_⟩
      rintro a ha b hb rfl
      obtain ⟨k, k1, k2, k3⟩ := (p4 a).1 ha
      have := huniq a k (List.mem_reverse.1 hb) k3
      omega
    · rw [p3]; dsimp only; rw [q3]; simp
    · intro x
      rw [List.mem_append, List.mem_reverse, p4]
      constructor
      · rintro (⟨k, k1, k2, k3⟩ | h)
        · exact ⟨k, by omega, by omega, k3⟩
        · exact ⟨i, by omega, by omega, h⟩
      · rintro ⟨k, k1, k2, k3⟩
        by_cases c : k = i
        · right; rw [← c]; exact k3
        · left; exact ⟨k, by omega, by omega, k3⟩
    · intro j
      rw [p5]
      dsimp only
      rw [q4]
      simp only [List.mem_append, List.mem_reverse]
      by_cases c : j ∈ l <;> simp [c]

end Rpp.RA
