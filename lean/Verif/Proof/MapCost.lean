import Verif.Model.MapCost
import Verif.Spec.MapCost
import Verif.Proof.MapRun

/-! Lemmas on the number of slots the loops of the hash table look at. -/

namespace Rpp.Map
open Rpp Rpp.Math Rpp.Spec
variable {K V : Type _} [DecidableEq K]

theorem entries_eq (m : Map K V) : entries m = (slots m.data).length := by
  unfold entries slots
  induction m.data with
  | nil => rfl
  | cons o l ih => cases o <;> simp [ih]

theorem wayTo_eq {m : Map K V} {s : Slot K V} {i : Nat} (ha : s.hash / 2 ^ m.shift < m.cap)
    (hi : i < m.cap) : wayTo m s i = D m.cap m.shift s i := by
  unfold wayTo D
  generalize s.hash / 2 ^ m.shift = a at *
  unfold pdist
  split
  · have e : i + m.cap - a = (i - a) + m.cap := by omega
    rw [e, Nat.add_mod_right, Nat.mod_eq_of_lt (by omega)]
  · rw [Nat.mod_eq_of_lt (by omega)]; omega

theorem fwd_lt {cap a j : Nat} (ha : a < cap) (hj : j ≤ cap) : fwd cap a j < cap := by
  unfold fwd; split <;> omega

theorem fwd_inj {cap a i j : Nat} (ha : a < cap) (hi : i < cap) (hj : j < cap)
    (h : fwd cap a i = fwd cap a j) : i = j := by
  unfold fwd at h; split at h <;> split at h <;> omega

theorem fwd_zero {cap a : Nat} (ha : a < cap) : fwd cap a 0 = a := by
  unfold fwd; rw [if_pos (by omega)]; rfl

/-- A run of occupied slots is no longer than the number of slots in use. -/
theorem run_le {cap a : Nat} (ha : a < cap) : ∀ (k : Nat) (tab : List (Option (Slot K V))),
    k ≤ cap → (∀ j, j < k → ∃ s, tab[fwd cap a j]? = some (some s)) → k ≤ (slots tab).length := by
  intro k
  induction k with
  | zero => intros; omega
  | succ k ih =>
    intro tab hk h
    obtain ⟨s, hs⟩ := h k (by omega)
    have hc := (slots_clear hs).length_eq
    simp only [List.length_cons] at hc
    have := ih (tab.set (fwd cap a k) none) (by omega) (by
      intro j hj
      obtain ⟨s', hs'⟩ := h j (by omega)
      refine ⟨s', ?_⟩
      rw [List.getElem?_set_ne]
      · exact hs'
      · intro e
        have := fwd_inj ha (by omega) (by omega) e
        omega)
    omega

/-! ### Lookup -/

theorem find_more {cap shift : Nat} {tab : List (Option (Slot K V))} {hash : Nat} {key : K} :
    ∀ (f idx d : Nat), findLoop cap shift tab hash key f idx d ≠ .error .hang →
      findLoop cap shift tab hash key (f + 1) idx d = findLoop cap shift tab hash key f idx d := by
  intro f
  induction f with
  | zero => intro idx d h; exact absurd rfl h
  | succ f ih =>
    intro idx d h
    rw [findLoop] at h ⊢
    conv => rhs; rw [findLoop]
    cases ho : tab[idx]? with
    | none => rfl
    | some o =>
      cases o with
      | none => rfl
      | some s =>
        simp only [ho] at h ⊢
        by_cases hk : s.hash = hash ∧ s.key = key
        · rw [if_pos hk, if_pos hk]
        · rw [if_neg hk] at h ⊢
          rw [if_neg hk]
          cases hs : shr s.hash shift with
          | error e => rfl
          | ok a =>
            simp only [hs, bind, Except.bind] at h ⊢
            by_cases hp : pdist cap a idx < d
            · rw [if_pos hp, if_pos hp]
            · rw [if_neg hp] at h ⊢
              rw [if_neg hp]
              exact ih _ _ h

theorem find_hang {cap shift : Nat} {tab : List (Option (Slot K V))} {hash : Nat} {key : K} {a : Nat}
    (ha : a < cap) : ∀ (f j : Nat), j + f ≤ cap →
      findLoop cap shift tab hash key f (fwd cap a j) j = .error .hang →
      ∀ i, i < f → ∃ s, tab[fwd cap a (j + i)]? = some (some s) ∧
        j + i ≤ D cap shift s (fwd cap a (j + i)) := by
  intro f
  induction f with
  | zero => intro j _ _ i hi; omega
  | succ f ih =>
    intro j hj h i hi
    rw [findLoop] at h
    cases ho : tab[fwd cap a j]? with
    | none => rw [ho] at h; cases h
    | some o =>
      cases o with
      | none => simp only [ho] at h; cases h
      | some s =>
        simp only [ho] at h
        by_cases hk : s.hash = hash ∧ s.key = key
        · rw [if_pos hk] at h; cases h
        · rw [if_neg hk] at h
          unfold shr at h
          by_cases hsh : shift < 64
          · rw [if_pos hsh] at h
            simp only [bind, Except.bind] at h
            by_cases hp : pdist cap (s.hash / 2 ^ shift) (fwd cap a j) < j
            · rw [if_pos hp] at h; cases h
            · rw [if_neg hp, fwd_succ ha (by omega)] at h
              cases i with
              | zero => exact ⟨s, ho, by simp only [Nat.add_zero]; unfold D; omega⟩
              | succ i =>
                have := ih (j + 1) (by omega) h i (by omega)
                rwa [show j + 1 + i = j + (i + 1) from by omega] at this
          · rw [if_neg hsh] at h; simp [bind, Except.bind] at h

/-- Fewer turns than the way to the slot are not enough. -/
theorem find_far {H : K → Nat} (hH : HashOK H) {cap shift : Nat}
    {tab : List (Option (Slot K V))} (h : TabOK H cap shift tab) {p : Nat} {s : Slot K V}
    (hp : tab[p]? = some (some s)) : ∀ f j, j + f ≤ D cap shift s p →
      findLoop cap shift tab s.hash s.key f (fwd cap (s.hash / 2 ^ shift) j) j = .error .hang := by
  have ha := ideal_lt hH h hp
  have hpl : p < cap := h.len ▸ lt_of_get hp
  have hd : D cap shift s p < cap := pdist_lt ha hpl
  intro f
  induction f with
  | zero => intros; rfl
  | succ f ih =>
    intro j hj
    obtain ⟨s', h1, h2⟩ := reach hH h hp (D cap shift s p - j) j (by omega)
    have hne : ¬ (s'.hash = s.hash ∧ s'.key = s.key) := by
      rintro ⟨_, hk⟩
      have e := uniq h.nodup h1 hp hk
      have e2 : fwd cap (s.hash / 2 ^ shift) (D cap shift s p) = p := fwd_pdist ha hpl
      have := fwd_inj ha (by omega) hd (e.trans e2.symm)
      omega
    simp only [findLoop, h1]
    rw [if_neg hne, shr_ok h]
    simp only [bind, Except.bind]
    have h2' : ¬ pdist cap (s'.hash / 2 ^ shift) (fwd cap (s.hash / 2 ^ shift) j) < j := by
      unfold D at h2; omega
    rw [if_neg h2', fwd_succ ha (by omega)]
    exact ih (j + 1) (by omega)

/-- Going from an answer in many turns to the same answer in fewer. -/
theorem within_of {β : Type _} {f : Nat → Res β} {n N : Nat} {x : β}
    (more : ∀ k, f k ≠ .error .hang → f (k + 1) = f k) (hn : f n ≠ .error .hang)
    (hN : f N = .ok x) : Within n f x := by
  have up : ∀ d, f (n + d) = f n := by
    intro d
    induction d with
    | zero => rfl
    | succ d ih =>
      have := more (n + d) (by rw [ih]; exact hn)
      rw [← Nat.add_assoc, this, ih]
  have hx : f n = .ok x := by
    rcases Nat.le_total n N with h | h
    · have := up (N - n)
      rw [Nat.add_sub_cancel' h] at this
      rw [← this, hN]
    · have up2 : ∀ d, f (N + d) = .ok x := by
        intro d
        induction d with
        | zero => exact hN
        | succ d ih =>
          have := more (N + d) (by rw [ih]; simp)
          rw [← Nat.add_assoc, this, ih]
      have := up2 (n - N)
      rwa [Nat.add_sub_cancel' h] at this
  intro t ht
  have := up (t - n)
  rw [Nat.add_sub_cancel' ht] at this
  rw [this, hx]

/-! ### Insertion -/

theorem insert_more {cap shift : Nat} : ∀ (f : Nat) (tab : List (Option (Slot K V)))
    (slot : Slot K V) (idx d : Nat) (pl : Option Nat),
    insertLoop cap shift f tab slot idx d pl ≠ .error .hang →
      insertLoop cap shift (f + 1) tab slot idx d pl = insertLoop cap shift f tab slot idx d pl := by
  intro f
  induction f with
  | zero => intro _ _ _ _ _ h; exact absurd rfl h
  | succ f ih =>
    intro tab slot idx d pl h
    rw [insertLoop] at h ⊢
    conv => rhs; rw [insertLoop]
    cases ho : tab[idx]? with
    | none => rfl
    | some o =>
      cases o with
      | none => rfl
      | some s =>
        simp only [ho] at h ⊢
        by_cases hk : s.hash = slot.hash ∧ s.key = slot.key
        · rw [if_pos hk, if_pos hk]
        · rw [if_neg hk] at h ⊢
          rw [if_neg hk]
          cases hs : shr s.hash shift with
          | error e => rfl
          | ok a =>
            simp only [hs, bind, Except.bind] at h ⊢
            by_cases hp : pdist cap a idx < d
            · rw [if_pos hp] at h ⊢
              rw [if_pos hp]
              exact ih _ _ _ _ _ h
            · rw [if_neg hp] at h ⊢
              rw [if_neg hp]
              exact ih _ _ _ _ _ h

theorem insert_hang {cap shift : Nat} {a : Nat} (ha : a < cap) : ∀ (f : Nat)
    (tab : List (Option (Slot K V))) (slot : Slot K V) (j d : Nat) (pl : Option Nat), j + f ≤ cap →
      insertLoop cap shift f tab slot (fwd cap a j) d pl = .error .hang →
      ∀ i, i < f → ∃ s, tab[fwd cap a (j + i)]? = some (some s) := by
  intro f
  induction f with
  | zero => intro _ _ _ _ _ _ _ i hi; omega
  | succ f ih =>
    intro tab slot j d pl hj h i hi
    rw [insertLoop] at h
    cases ho : tab[fwd cap a j]? with
    | none => rw [ho] at h; cases h
    | some o =>
      cases o with
      | none => simp only [ho] at h; cases h
      | some s =>
        simp only [ho] at h
        by_cases hk : s.hash = slot.hash ∧ s.key = slot.key
        · rw [if_pos hk] at h; cases h
        · rw [if_neg hk] at h
          cases hs : shr s.hash shift with
          | error e => unfold shr at hs; split at hs <;> cases hs; simp [shr, *, bind, Except.bind] at h
          | ok b =>
            simp only [hs, bind, Except.bind] at h
            cases i with
            | zero => exact ⟨s, ho⟩
            | succ i =>
              rw [show j + (i + 1) = j + 1 + i from by omega]
              by_cases hp : pdist cap b (fwd cap a j) < d
              · rw [if_pos hp, fwd_succ ha (by omega)] at h
                obtain ⟨s', hs'⟩ := ih _ _ _ _ _ (by omega) h i (by omega)
                rw [List.getElem?_set_ne] at hs'
                · exact ⟨s', hs'⟩
                · intro e
                  have := fwd_inj ha (by omega) (by omega) e
                  omega
              · rw [if_neg hp, fwd_succ ha (by omega)] at h
                exact ih _ _ _ _ _ (by omega) h i (by omega)

/-! ### Backward shift -/

theorem fix_more {cap shift : Nat} : ∀ (f : Nat) (tab : List (Option (Slot K V))) (idx : Nat),
    fixLoop cap shift f tab idx ≠ .error .hang →
      fixLoop cap shift (f + 1) tab idx = fixLoop cap shift f tab idx := by
  intro f
  induction f with
  | zero => intro _ _ h; exact absurd rfl h
  | succ f ih =>
    intro tab idx h
    rw [fixLoop] at h ⊢
    conv => rhs; rw [fixLoop]
    generalize (if idx = cap - 1 then 0 else idx + 1) = nx at *
    simp only [bind, Except.bind] at h ⊢
    cases ho : tab[nx]? with
    | none => rfl
    | some o =>
      cases o with
      | none => rfl
      | some s =>
        simp only [ho] at h ⊢
        cases hs : shr s.hash shift with
        | error e => rfl
        | ok a =>
          simp only [hs] at h ⊢
          by_cases hp : nx = a
          · rw [if_pos hp, if_pos hp]
          · rw [if_neg hp] at h ⊢
            rw [if_neg hp]
            exact ih _ _ h

theorem fix_hang {cap shift : Nat} {a : Nat} (ha : a < cap) : ∀ (f : Nat)
    (tab : List (Option (Slot K V))) (j : Nat), j + f < cap →
      fixLoop cap shift f tab (fwd cap a j) = .error .hang →
      ∀ i, i < f → ∃ s, tab[fwd cap a (j + 1 + i)]? = some (some s) := by
  intro f
  induction f with
  | zero => intro _ _ _ _ i hi; omega
  | succ f ih =>
    intro tab j hj h i hi
    have hnext : (if fwd cap a j = cap - 1 then 0 else fwd cap a j + 1) = fwd cap a (j + 1) := by
      rw [← fwd_succ ha (by omega)]
      have := fwd_lt ha (show j ≤ cap by omega)
      unfold nxt; split <;> split <;> omega
    rw [fixLoop] at h
    simp only [hnext, bind, Except.bind] at h
    cases ho : tab[fwd cap a (j + 1)]? with
    | none => rw [ho] at h; cases h
    | some o =>
      cases o with
      | none => simp only [ho] at h; cases h
      | some s =>
        simp only [ho] at h
        cases hs : shr s.hash shift with
        | error e => unfold shr at hs; split at hs <;> cases hs; simp [shr, *] at h
        | ok b =>
          simp only [hs] at h
          by_cases hp : fwd cap a (j + 1) = b
          · rw [if_pos hp] at h; cases h
          · rw [if_neg hp] at h
            cases i with
            | zero => exact ⟨s, ho⟩
            | succ i =>
              obtain ⟨s', hs'⟩ := ih _ (j + 1) (by omega) h i (by omega)
              rw [List.getElem?_set_ne, List.getElem?_set_ne] at hs'
              · exact ⟨s', by rw [show j + 1 + (i + 1) = j + 1 + 1 + i from by omega]; exact hs'⟩
              · intro e
                have := fwd_inj ha (by omega) (by omega) e
                omega
              · intro e
                have := fwd_inj ha (by omega) (by omega) e
                omega

/-! ### Erasing -/

/-- The search for a key to erase goes over empty slots until the end of the table. -/
theorem erase_over {cap shift : Nat} {tab : List (Option (Slot K V))} {hash : Nat} {key : K} {a : Nat}
    (hsh : shift < 64) (hempty : ∀ i, a ≤ i → i < cap → tab[i]? = some none) :
    ∀ (f j : Nat), a + j + f ≤ cap →
      eraseLoop cap shift tab hash key f (if a + j = cap then 0 else a + j) j = .error .hang := by
  intro f
  induction f with
  | zero => intros; rfl
  | succ f ih =>
    intro j hj
    rw [if_neg (by omega), eraseLoop, hempty (a + j) (by omega) (by omega)]
    have h0 : pdist cap 0 (a + j) = a + j := by unfold pdist; rw [if_pos (by omega)]; rfl
    have hn : nxt cap (a + j) = if a + (j + 1) = cap then 0 else a + (j + 1) := by
      unfold nxt; rfl
    simp only [Option.any_none, Bool.false_eq_true, if_false, Option.elim_none, shr, if_pos hsh,
      Nat.zero_div, bind, Except.bind, h0]
    rw [if_neg (by omega), hn]
    exact ih (j + 1) (by omega)

end Rpp.Map
