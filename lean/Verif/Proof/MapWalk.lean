import Verif.Model.MapWalk
import Verif.Proof.MapRun

/-!
# Lemmas on changing a hash table while it is traversed
-/

namespace Rpp.Map

open Rpp Rpp.Spec

variable {K V : Type _} [DecidableEq K]

theorem try_erase_cap {H : K → Nat} {m m' : Map K V} {k : K} {b : Bool} (h : try_erase H m k = .ok (m', b)) : m'.cap = m.cap := by
  unfold try_erase at h
  by_cases he : m.isEmpty = true
  · rw [if_pos he] at h; cases h; rfl
  · rw [if_neg he] at h
    simp only [bind, Except.bind, pure, Except.pure] at h
    split at h
    · cases h
    · split at h
      · cases h
      · split at h
        · cases h; rfl
        · cases h; rfl

theorem data_len {H : K → Nat} {lim : Nat} {m : Map K V} (h : Inv H lim m) : m.data.length = m.cap := by
  by_cases h0 : m.cap = 0
  · rw [h.zero h0, h0]; rfl
  · exact (h.tab h0).len

/-- Erasing several keys. -/
theorem perform_erase {H : K → Nat} (hH : HashOK H) {lim : Nat} {d : V} : ∀ (ks : List K) {m : Map K V},
    Inv H lim m → Reachable H lim d m → ∃ m', perform H lim d m (ks.map .tryErase) = .ok m' ∧ Inv H lim m' ∧
      Reachable H lim d m' ∧ m'.cap = m.cap ∧ (∀ k, abs m' k = if k ∈ ks then none else abs m k)
  | [], m, h, hr => ⟨m, rfl, h, hr, rfl, fun k => by simp⟩
  | k :: ks, m, h, hr => by
    obtain ⟨m1, e, i1, i2, _, _⟩ := try_erase_ok hH h k
    have es : step H lim d m (.tryErase k) = .ok (m1, .bool (abs m k).isSome) := by simp only [step, e]; rfl
    obtain ⟨m', e', i', r', c', a'⟩ := perform_erase hH ks i1 (.step hr (by simp) es)
    refine ⟨m', ?_, i', r', by rw [c', try_erase_cap e], fun k' => ?_⟩
    · rw [List.map_cons]; unfold perform; rw [es]; exact e'
    · rw [a', i2]
      unfold FMap.del
      by_cases h1 : k = k'
      · subst h1; simp
      · by_cases h2 : k' ∈ ks
        · simp [h2]
        · simp [h1, h2, Ne.symm h1]

/-- Erasing several keys that are present. -/
theorem perform_erase_present {H : K → Nat} (hH : HashOK H) {lim : Nat} {d : V} : ∀ (l : List (K × V)) {m : Map K V},
    Inv H lim m → (l.map Prod.fst).Nodup → (∀ x ∈ l, abs m x.1 ≠ none) →
    ∃ m', perform H lim d m (l.map fun x => .erase x.1) = .ok m' ∧ Inv H lim m' ∧
      (∀ k, abs m' k = if k ∈ l.map Prod.fst then none else abs m k)
  | [], m, h, _, _ => ⟨m, rfl, h, fun k => by simp⟩
  | x :: l, m, h, hn, hp => by
    obtain ⟨m1, e, i1, i2, _, _⟩ := try_erase_ok hH h x.1
    have hx : (abs m x.1).isSome = true := by
      have := hp x (.head _)
      cases h : abs m x.1 with
      | none => exact absurd h this
      | some _ => rfl
    have es : step H lim d m (.erase x.1) = .ok (m1, .unit) := by
      simp only [step, erase, e, hx]; rfl
    rw [List.map_cons, List.nodup_cons] at hn
    obtain ⟨m', e', i', a'⟩ := perform_erase_present (d := d) hH l i1 hn.2 fun y hy => by
      rw [i2]
      unfold FMap.del
      rw [if_neg fun hc => hn.1 (List.mem_map.mpr ⟨y, hy, hc.symm⟩)]
      exact hp y (.tail _ hy)
    refine ⟨m', ?_, i', fun k => ?_⟩
    · rw [List.map_cons]; unfold perform; rw [es]; exact e'
    · rw [a', i2]
      unfold FMap.del
      by_cases h1 : x.1 = k
      · subst h1; simp
      · by_cases h2 : k ∈ l.map Prod.fst
        · rw [if_pos h2, List.map_cons, if_pos (List.mem_cons_of_mem _ h2)]
        · rw [if_neg h2, if_neg h1, if_neg]
          rw [List.map_cons, List.mem_cons]
          rintro (h | h)
          · exact h1 h.symm
          · exact h2 h

theorem walkLoop_erase {H : K → Nat} (hH : HashOK H) {lim : Nat} {d : V} (ks : K → V → List K) (f : FMap K V) : ∀ (fuel : Nat) {m : Map K V} {c : Nat},
    Inv H lim m → Reachable H lim d m → m.data.length = m.cap → (∀ k v, abs m k = some v → f k = some v) → c ≤ m.cap → m.cap - c < fuel →
    (c < m.cap → ∃ s, m.data[c]? = some (some s)) →
    ∃ l m', walkLoop H lim d (fun k v => (ks k v).map .tryErase) m.cap fuel m c = .ok (l, m') ∧ Reachable H lim d m' ∧ (∀ x ∈ l, f x.1 = some x.2) ∧
      (∀ k, abs m' k = none ∨ abs m' k = abs m k) ∧
      (∀ k, (abs m' k = none ∧ abs m k ≠ none) → ∃ x ∈ l, k ∈ ks x.1 x.2) ∧
      ∀ k, (∃ x ∈ l, k ∈ ks x.1 x.2) → abs m' k = none
  | 0, _, _, _, _, _, _, _, h, _ => by omega
  | fuel + 1, m, c, hi, hr, hl, hf, hc, hfuel, hs => by
    unfold walkLoop
    by_cases he : c = m.cap
    · rw [if_pos he]
      exact ⟨[], m, rfl, hr, by simp, fun k => .inr rfl, fun k hk => absurd hk.1 hk.2, by simp⟩
    rw [if_neg he]
    obtain ⟨s, es⟩ := hs (by omega)
    rw [es]
    dsimp only
    obtain ⟨m1, e1, i1, r1, c1, a1⟩ := perform_erase (d := d) hH (ks s.key s.val) hi hr
    rw [e1]
    dsimp only
    have hl1 : m1.data.length = m1.cap := data_len i1
    obtain ⟨c', e2, h1, h2, h3, h4⟩ := skip_spec hl1 m1.cap (c + 1) (by omega) (by omega)
    rw [e2]
    dsimp only
    have hin : f s.key = some s.val := hf _ _ (by
      have hx := (lists_of hi).2 s.key s.val
      rw [← hx]
      refine List.mem_map.mpr ⟨s, mem_slots.mpr ⟨c, es⟩, rfl⟩)
    obtain ⟨l, m', e3, r3, p1, p2, p3, p4⟩ := walkLoop_erase hH ks f fuel i1 r1 hl1 (fun k v hk => by
      rw [a1] at hk
      split at hk
      · cases hk
      · exact hf k v hk) h2 (by omega) h4
    rw [c1] at e3
    rw [e3]
    refine ⟨_, m', rfl, r3, ?_, fun k => ?_, ?_, ?_⟩
    · rintro x (_ | ⟨_, hx⟩)
      · exact hin
      · exact p1 x hx
    · rcases p2 k with h | h
      · exact .inl h
      · rw [h, a1]
        split
        · exact .inl rfl
        · exact .inr rfl
    · intro k ⟨hk1, hk2⟩
      by_cases hm : k ∈ ks s.key s.val
      · exact ⟨(s.key, s.val), .head _, hm⟩
      · obtain ⟨x, hx, hx2⟩ := p3 k ⟨hk1, by rw [a1, if_neg hm]; exact hk2⟩
        exact ⟨x, .tail _ hx, hx2⟩
    · rintro k ⟨x, hx, hk⟩
      rcases List.mem_cons.mp hx with rfl | hx
      · rcases p2 k with h | h
        · exact h
        · rw [h, a1, if_pos hk]
      · exact p4 k ⟨x, hx, hk⟩

end Rpp.Map
