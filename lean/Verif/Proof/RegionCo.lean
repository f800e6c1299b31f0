import Verif.Spec.RegionCo
import Verif.Proof.Region

/-! Helper lemmas for regions in coroutines. -/

namespace Rpp.RegionCo
open Rpp.Reg

variable {lim : Nat}

/-- What is known of a thread between stretches: nothing is open and nothing is held. -/
def Idle (lim : Nat) (s : Reg) : Prop := Reg.Run lim s [⟨0, [], Reg.init.chunks, 0⟩]

theorem stretch_nested (hlim : lim < 2 ^ 62) : ∀ (as : List Act) (d : Nat) (os : List Nat) (s : Reg) (sc : List Scope),
    Reg.Run lim s (sc ++ [⟨0, [], Reg.init.chunks, 0⟩]) → sc.map Scope.brand = os → os.length + d = 127 →
    Nested d os as →
    stretch lim s as = .error .oom ∨ ∃ s' out, stretch lim s as = .ok (s', out) ∧ Idle lim s'
  | [], _, os, s, sc, hr, hb, _, hn => by
    have : os = [] := hn
    subst this
    have : sc = [] := List.map_eq_nil_iff.mp hb
    subst this
    exact Or.inr ⟨s, [], rfl, hr⟩
  | .begin b :: as, 0, _, _, _, _, _, _, hn => hn.elim
  | .begin b :: as, d + 1, os, s, sc, hr, hb, hd, hn => by
    have hi := hr.inv hlim
    have hc := hi.cur
    have hl : sc.length = os.length := by rw [← hb, List.length_map]
    simp only [List.length_append, List.length_cons, List.length_nil] at hc
    rcases Reg.begin_ok hi b with ⟨_, s', e, _⟩ | ⟨h, _⟩
    · have hr' := Reg.Run.begin hr e
      have := stretch_nested hlim as d (b :: os) s' (⟨b, [], s.chunks, s.size⟩ :: sc) hr'
        (by simp [hb]) (by simp; omega) hn
      have ea : act lim s (.begin b) = .ok (s', []) := by unfold act; dsimp only; rw [e]; rfl
      unfold stretch
      rw [ea]
      dsimp only
      rcases this with h | ⟨s2, o2, h, hi2⟩
      · rw [h]; exact Or.inl rfl
      · rw [h]; exact Or.inr ⟨_, _, rfl, hi2⟩
    · omega
  | .alloc b n :: as, d, os, s, sc, hr, hb, hd, hn => by
    have hn' : os.head? = some b ∧ n < 2 ^ 63 ∧ Nested d os as := by cases d <;> exact hn
    obtain ⟨h1, h2, h3⟩ := hn'
    cases sc with
    | nil => rw [← hb] at h1; cases h1
    | cons c sc =>
      have hcb : c.brand = b := by
        rw [← hb] at h1
        simpa using h1
      unfold stretch
      rcases Reg.alloc_ok hlim (hr.inv hlim) h2 with ⟨s', id, off, e, _⟩ | e
      · rw [hcb] at e
        have hr' := Reg.Run.alloc hr h2 e
        have ea : act lim s (.alloc b n) = .ok (s', [(id, off)]) := by unfold act; dsimp only; rw [e]; rfl
        rw [ea]
        dsimp only
        have := stretch_nested hlim as d os s' ({ c with blocks := ⟨id, off, n⟩ :: c.blocks } :: sc) hr'
          (by rw [← hb]; rfl) hd h3
        rcases this with h | ⟨s2, o2, h, hi2⟩
        · rw [h]; exact Or.inl rfl
        · rw [h]; exact Or.inr ⟨_, _, rfl, hi2⟩
      · rw [hcb] at e
        have ea : act lim s (.alloc b n) = .error .oom := by unfold act; dsimp only; rw [e]; rfl
        rw [ea]
        exact Or.inl rfl
  | .fin b :: as, d, os, s, sc, hr, hb, hd, hn => by
    have hn' : os.head? = some b ∧ Nested (d + 1) os.tail as := by cases d <;> exact hn
    obtain ⟨h1, h3⟩ := hn'
    cases sc with
    | nil => rw [← hb] at h1; cases h1
    | cons c sc =>
      have hcb : c.brand = b := by
        rw [← hb] at h1
        simpa using h1
      have hos : os.tail = sc.map Scope.brand := by rw [← hb]; rfl
      have hlen : os.length = os.tail.length + 1 := by rw [← hb]; simp
      obtain ⟨e0, sc', hsc⟩ : ∃ e0 sc', sc ++ [⟨0, [], Reg.init.chunks, 0⟩] = e0 :: sc' := by
        cases sc with
        | nil => exact ⟨_, _, rfl⟩
        | cons x xs => exact ⟨_, _, rfl⟩
      have hr1 : Reg.Run lim s (c :: e0 :: sc') := by rw [← hsc]; exact hr
      obtain ⟨s', e, _⟩ := Reg.end_ok hlim (hr1.inv hlim)
      rw [hcb] at e
      have hr2 := Reg.Run.close hr1 e
      rw [← hsc] at hr2
      have ea : act lim s (.fin b) = .ok (s', []) := by unfold act; dsimp only; rw [e]; rfl
      unfold stretch
      rw [ea]
      dsimp only
      have := stretch_nested hlim as (d + 1) os.tail s' sc hr2 hos.symm (by omega) h3
      rcases this with h | ⟨s2, o2, h, hi2⟩
      · rw [h]; exact Or.inl rfl
      · rw [h]; exact Or.inr ⟨_, _, rfl, hi2⟩

theorem stretch_holds (hlim : lim < 2 ^ 62) : ∀ (as rest : List Act) (d : Nat) (os : List Nat) (s s' : Reg)
    (sc : List Scope) (out : List (Nat × Nat)),
    Reg.Run lim s (sc ++ [⟨0, [], Reg.init.chunks, 0⟩]) → sc.map Scope.brand = os → Nested d os (as ++ rest) →
    stretch lim s as = .ok (s', out) →
    ∃ sc', Reg.Run lim s' (sc' ++ [⟨0, [], Reg.init.chunks, 0⟩]) ∧
      sc'.map Scope.blocks = holding (sc.map Scope.blocks) as out
  | [], _, _, _, s, s', sc, out, hr, _, _, e => by
    unfold stretch at e
    cases e
    exact ⟨sc, hr, by simp [holding]⟩
  | .begin b :: as, rest, d, os, s, s', sc, out, hr, hb, hn, e => by
    cases d with
    | zero => exact hn.elim
    | succ d =>
      unfold stretch act at e
      dsimp only at e
      cases e1 : s.begin b with
      | error er => rw [e1] at e; cases e
      | ok s1 =>
        rw [e1] at e
        dsimp only [Except.map] at e
        cases e2 : stretch lim s1 as with
        | error er => rw [e2] at e; cases e
        | ok p =>
          rw [e2] at e
          cases e
          obtain ⟨sc', h1, h2⟩ := stretch_holds hlim as rest d (b :: os) s1 p.1
            (⟨b, [], s.chunks, s.size⟩ :: sc) p.2 (Reg.Run.begin hr e1) (by simp [hb]) hn e2
          exact ⟨sc', h1, by rw [h2]; simp [holding]⟩
  | .alloc b n :: as, rest, d, os, s, s', sc, out, hr, hb, hn, e => by
    have hn' : os.head? = some b ∧ n < 2 ^ 63 ∧ Nested d os (as ++ rest) := by cases d <;> exact hn
    obtain ⟨g1, g2, g3⟩ := hn'
    cases sc with
    | nil => rw [← hb] at g1; cases g1
    | cons c sc =>
      unfold stretch act at e
      dsimp only at e
      cases e1 : Reg.alloc lim s b n with
      | error er => rw [e1] at e; cases e
      | ok r =>
        obtain ⟨s1, id, off⟩ := r
        rw [e1] at e
        dsimp only [Except.map] at e
        cases e2 : stretch lim s1 as with
        | error er => rw [e2] at e; cases e
        | ok p =>
          rw [e2] at e
          cases e
          obtain ⟨sc', h1, h2⟩ := stretch_holds hlim as rest d os s1 p.1
            ({ c with blocks := ⟨id, off, n⟩ :: c.blocks } :: sc) p.2 (Reg.Run.alloc hr g2 e1) (by rw [← hb]; rfl) g3 e2
          exact ⟨sc', h1, by rw [h2]; simp [holding]⟩
  | .fin b :: as, rest, d, os, s, s', sc, out, hr, hb, hn, e => by
    have hn' : os.head? = some b ∧ Nested (d + 1) os.tail (as ++ rest) := by cases d <;> exact hn
    obtain ⟨g1, g3⟩ := hn'
    cases sc with
    | nil => rw [← hb] at g1; cases g1
    | cons c sc =>
      unfold stretch act at e
      dsimp only at e
      cases e1 : s.end' b with
      | error er => rw [e1] at e; cases e
      | ok s1 =>
        rw [e1] at e
        dsimp only [Except.map] at e
        cases e2 : stretch lim s1 as with
        | error er => rw [e2] at e; cases e
        | ok p =>
          rw [e2] at e
          cases e
          obtain ⟨e0, sc0, hsc⟩ : ∃ e0 sc', sc ++ [⟨0, [], Reg.init.chunks, 0⟩] = e0 :: sc' := by
            cases sc with
            | nil => exact ⟨_, _, rfl⟩
            | cons x xs => exact ⟨_, _, rfl⟩
          have hr1 : Reg.Run lim s (c :: e0 :: sc0) := by rw [← hsc]; exact hr
          have hr2 := Reg.Run.close hr1 e1
          rw [← hsc] at hr2
          obtain ⟨sc', h1, h2⟩ := stretch_holds hlim as rest (d + 1) os.tail s1 p.1 sc p.2 hr2
            (by rw [← hb]; rfl) g3 e2
          exact ⟨sc', h1, by rw [h2]; simp [holding]⟩

theorem run_nested (hlim : lim < 2 ^ 62) : ∀ (es : List (Nat × Nat)) (s : Sys), (∀ t, Idle lim (s.thread t)) →
    (∀ co ∈ s.cos, ∀ seg ∈ co, Nested 127 [] seg) →
    run lim s es = .error .oom ∨ ∃ s' out, run lim s es = .ok (s', out) ∧ ∀ t, Idle lim (s'.thread t)
  | [], s, hi, _ => Or.inr ⟨s, [], rfl, hi⟩
  | (t, i) :: es, s, hi, hn => by
    have main : step lim s t i = .error .oom ∨ ∃ s' out, step lim s t i = .ok (s', out) ∧
        (∀ t, Idle lim (s'.thread t)) ∧ (∀ co ∈ s'.cos, ∀ seg ∈ co, Nested 127 [] seg) := by
      unfold step
      split
      · rename_i seg segs hc
        have hm : seg :: segs ∈ s.cos := List.mem_of_getElem? hc
        rcases stretch_nested hlim seg 127 [] (s.thread t) [] (hi t) rfl rfl (hn _ hm seg (by simp)) with
          h | ⟨r, out, h, hr⟩
        · rw [h]; exact Or.inl rfl
        · rw [h]
          refine Or.inr ⟨_, _, rfl, fun u => ?_, fun co hco sg hsg => ?_⟩
          · dsimp only
            split
            · exact hr
            · exact hi u
          · rcases List.mem_or_eq_of_mem_set hco with h1 | h1
            · exact hn co h1 sg hsg
            · subst h1
              exact hn _ hm sg (by simp [hsg])
      · exact Or.inr ⟨_, _, rfl, hi, hn⟩
    unfold run
    rcases main with h | ⟨s1, o1, h, hi1, hn1⟩
    · rw [h]; exact Or.inl rfl
    · rw [h]
      dsimp only
      rcases run_nested hlim es s1 hi1 hn1 with h | ⟨s2, o2, h, hi2⟩
      · rw [h]; exact Or.inl rfl
      · rw [h]; exact Or.inr ⟨_, _, rfl, hi2⟩

end Rpp.RegionCo
