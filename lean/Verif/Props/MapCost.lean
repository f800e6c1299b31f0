import Verif.Proof.MapCost
import Verif.Props.Math

/-!
# Properties of `Map`: the number of slots looked at (C165)
-/

namespace Rpp.Props
open Rpp Rpp.Map Rpp.Spec

variable {K V : Type _} [DecidableEq K]

/-- **C165** for lookups. Looking for a key, present or not, looks at no more slots than there are
entries, and one more. -/
theorem C165_lookup_partial {H : K → Nat} (hH : ∀ k, H k < 2 ^ 64) {lim : Nat} (hlim : lim < 2 ^ 62)
    {d : V} {m : Map K V} (hr : Reachable H lim d m) (hc : m.cap ≠ 0) (k : K) :
    ∃ x, find H m k = .ok x ∧ Within (entries m + 1) (lookIn H m k) x := by
  have h := hr.inv ⟨hH⟩ hlim
  have ht := h.tab hc
  have ha : H k / 2 ^ m.shift < m.cap := ht.rng _ (hH k)
  obtain ⟨h1, h2⟩ := find_ok ⟨hH⟩ h hc k
  have hx : ∃ x, find H m k = .ok x := by
    cases hv : abs m k with
    | none => exact ⟨_, h2 hv⟩
    | some v => obtain ⟨p, s, e, _⟩ := h1 v hv; exact ⟨_, e⟩
  obtain ⟨x, hx⟩ := hx
  have he : ∀ f, lookIn H m k f =
      findLoop m.cap m.shift m.data (H k) k f (H k / 2 ^ m.shift) 0 := by
    intro f; unfold lookIn; rw [shr_ok ht]; rfl
  have hf : lookIn H m k (m.cap + 2) = .ok x := hx
  refine ⟨x, hx, within_of (N := m.cap + 2) ?_ ?_ hf⟩
  · intro f hf; rw [he] at hf ⊢; rw [he]; exact find_more _ _ _ hf
  · intro hh
    rw [he] at hh
    have hlt : entries m + 1 ≤ m.cap := by
      have := h.cnt; have := h.le; have := h.us; have := ht.two; rw [entries_eq]; omega
    have := find_hang ha (entries m + 1) 0 (by omega) (by rw [fwd_zero ha]; exact hh)
    have := run_le ha (entries m + 1) m.data hlt (fun j hj => by
      obtain ⟨s, hs, _⟩ := this j hj
      exact ⟨s, by simpa using hs⟩)
    rw [entries_eq] at this
    omega

/-- **C165**, exactly: the slots looked at to find a key are those from the index its hash asks for to
its slot. -/
theorem C165_exact {H : K → Nat} (hH : ∀ k, H k < 2 ^ 64) {lim : Nat} (hlim : lim < 2 ^ 62)
    {d : V} {m : Map K V} (hr : Reachable H lim d m) {p : Nat} {s : Slot K V}
    (hp : m.data[p]? = some (some s)) :
    Within (wayTo m s p + 1) (lookIn H m s.key) (some p) ∧
    AtLeast (wayTo m s p + 1) (lookIn H m s.key) := by
  have h := hr.inv ⟨hH⟩ hlim
  have hc : m.cap ≠ 0 := by
    intro h0; rw [h.zero h0] at hp; simp at hp
  have ht := h.tab hc
  have ha := ideal_lt ⟨hH⟩ ht hp
  have hk : H s.key = s.hash := (ht.hash s (mem_slots.mpr ⟨p, hp⟩)).symm
  rw [wayTo_eq ha (ht.len ▸ lt_of_get hp)]
  have he : ∀ f, lookIn H m s.key f =
      findLoop m.cap m.shift m.data s.hash s.key f (fwd m.cap (s.hash / 2 ^ m.shift) 0) 0 := by
    intro f; unfold lookIn; rw [shr_ok ht, fwd_zero ha, hk]; rfl
  constructor
  · intro f hf
    rw [he]
    exact find_present ⟨hH⟩ ht hp _ 0 f (Nat.zero_add _) (by omega)
  · intro f hf
    rw [he]
    exact find_far ⟨hH⟩ ht hp f 0 (by omega)

/-- **C165**, absent keys: if no entry is further than `M` from the index its hash asks for, a lookup
looks at no more than `M + 2` slots, however full the table is. -/
theorem C165_longest {H : K → Nat} (hH : ∀ k, H k < 2 ^ 64) {lim : Nat} (hlim : lim < 2 ^ 62)
    {d : V} {m : Map K V} (hr : Reachable H lim d m) (hc : m.cap ≠ 0) (k : K) {M : Nat}
    (hM : ∀ p s, m.data[p]? = some (some s) → wayTo m s p ≤ M) :
    ∃ x, find H m k = .ok x ∧ Within (M + 2) (lookIn H m k) x := by
  obtain ⟨x, hx, hw⟩ := C165_lookup_partial hH hlim hr hc k
  have h := hr.inv ⟨hH⟩ hlim
  have ht := h.tab hc
  have ha : H k / 2 ^ m.shift < m.cap := ht.rng _ (hH k)
  have he : ∀ f, lookIn H m k f =
      findLoop m.cap m.shift m.data (H k) k f (H k / 2 ^ m.shift) 0 := by
    intro f; unfold lookIn; rw [shr_ok ht]; rfl
  refine ⟨x, hx, ?_⟩
  by_cases hlt : M + 2 ≤ entries m
  · refine within_of (N := entries m + 1) ?_ ?_ (hw _ (Nat.le_refl _))
    · intro f hf; rw [he] at hf ⊢; rw [he]; exact find_more _ _ _ hf
    · intro hh
      rw [he] at hh
      have hle : entries m ≤ m.cap := by
        have := h.cnt; have := h.le; have := h.us; rw [entries_eq]; omega
      obtain ⟨s, hs, hd⟩ := find_hang ha (M + 2) 0 (by omega) (by rw [fwd_zero ha]; exact hh)
        (M + 1) (by omega)
      have hi := ht.len ▸ lt_of_get hs
      have := hM _ s hs
      rw [wayTo_eq (ideal_lt ⟨hH⟩ ht hs) hi] at this
      omega
  · intro f hf; exact hw f (by omega)

/-- **C165** for insertions, once the table has been grown if need be: the new entry and those that
make way for it are put in place looking at no more slots than there are entries, and one more. -/
theorem C165_insert_partial {H : K → Nat} (hH : ∀ k, H k < 2 ^ 64) {lim : Nat} (hlim : lim < 2 ^ 62)
    {d : V} {m : Map K V} (hr : Reachable H lim d m) (hc : m.cap ≠ 0) (k : K) (v : V) :
    ∃ r, insert_slot (m.cap + 2) m.cap m.shift m.data ⟨H k, k, v⟩ = .ok r ∧
      Within (entries m + 1) (insertIn H m k v) r := by
  have h := hr.inv ⟨hH⟩ hlim
  have ht := h.tab hc
  have ha : H k / 2 ^ m.shift < m.cap := ht.rng _ (hH k)
  have hlt : entries m + 1 ≤ m.cap := by
    have := h.cnt; have := h.le; have := h.us; have := ht.two; rw [entries_eq]; omega
  have hx : ∃ r, insert_slot (m.cap + 2) m.cap m.shift m.data ⟨H k, k, v⟩ = .ok r := by
    by_cases hk : k ∈ (slots m.data).map Slot.key
    · obtain ⟨s, hs, rfl⟩ := List.mem_map.mp hk
      obtain ⟨p, hp⟩ := mem_slots.mp hs
      have hh : H s.key = s.hash := (ht.hash s hs).symm
      have hd : D m.cap m.shift s p < m.cap :=
        pdist_lt (ideal_lt ⟨hH⟩ ht hp) (ht.len ▸ lt_of_get hp)
      have := insert_old ⟨hH⟩ ht hp (slot := ⟨H s.key, s.key, v⟩) rfl hh _ 0 (m.cap + 2)
        (Nat.zero_add _) (by omega)
      rw [fwd_zero (ideal_lt ⟨hH⟩ ht hp), ← hh] at this
      unfold insert_slot
      rw [shr_ok ht]
      exact ⟨_, this⟩
    · obtain ⟨tab', i, e, _⟩ := insert_slot_new (fuel := m.cap + 2) ⟨hH⟩ ht
        (slot := ⟨H k, k, v⟩) hk rfl (by rw [← entries_eq]; omega) (by omega)
      exact ⟨_, e⟩
  obtain ⟨r, hx⟩ := hx
  have he : ∀ f, insertIn H m k v f = insertLoop m.cap m.shift f m.data ⟨H k, k, v⟩
      (fwd m.cap (H k / 2 ^ m.shift) 0) 0 none := by
    intro f; unfold insertIn insert_slot; rw [shr_ok ht, fwd_zero ha]; rfl
  refine ⟨r, hx, within_of (N := m.cap + 2) ?_ ?_ hx⟩
  · intro f hf; rw [he] at hf ⊢; rw [he]; exact insert_more _ _ _ _ _ _ hf
  · intro hh
    rw [he] at hh
    have := insert_hang ha (entries m + 1) m.data _ 0 0 none (by omega) hh
    have := run_le ha (entries m + 1) m.data hlt (fun j hj => by
      obtain ⟨s, hs⟩ := this j hj
      exact ⟨s, by simpa using hs⟩)
    rw [entries_eq] at this
    omega

/-- **C165** (partial) for erasing a key that is there: the search and the moving up of the entries
behind it look at no more slots than there are entries. Missing: keys that are not there, for which it is false
(below). -/
theorem C165_erase_partial {H : K → Nat} (hH : ∀ k, H k < 2 ^ 64) {lim : Nat} (hlim : lim < 2 ^ 62)
    {d : V} {m : Map K V} (hr : Reachable H lim d m) {p : Nat} {s : Slot K V}
    (hp : m.data[p]? = some (some s)) :
    ∃ tab, Within (entries m) (eraseIn H m s.key) (some tab) ∧ Within (entries m) (fixIn m p) tab := by
  have h := hr.inv ⟨hH⟩ hlim
  have hc : m.cap ≠ 0 := by
    intro h0; rw [h.zero h0] at hp; simp at hp
  have ht := h.tab hc
  have ha := ideal_lt ⟨hH⟩ ht hp
  have hpl : p < m.cap := ht.len ▸ lt_of_get hp
  have hk : H s.key = s.hash := (ht.hash s (mem_slots.mpr ⟨p, hp⟩)).symm
  have hlt : (slots m.data).length < m.cap := by
    have := h.cnt; have := h.le; have := h.us; have := ht.two; omega
  obtain ⟨e, he⟩ := exists_empty m.data (by rw [ht.len]; exact hlt)
  obtain ⟨tab, h1, h2, h3⟩ := erase_present ⟨hH⟩ ht hp he
  have hd : D m.cap m.shift s p < m.cap := pdist_lt ha hpl
  have hrun : D m.cap m.shift s p + 1 ≤ (slots m.data).length := by
    refine run_le ha _ m.data (by omega) ?_
    intro j hj
    obtain ⟨s', hs', _⟩ := reach ⟨hH⟩ ht hp (D m.cap m.shift s p - j) j (by omega)
    exact ⟨s', hs'⟩
  have hwe : Within (entries m) (eraseIn H m s.key) (some tab) := by
    intro f hf
    rw [entries_eq] at hf
    unfold eraseIn
    rw [shr_ok ht, hk]
    have := h1 _ 0 f (Nat.zero_add _) (by omega)
    rw [fwd_zero ha] at this
    exact this
  refine ⟨tab, hwe, ?_⟩
  have hbig : fixIn m p (m.cap + 2) = .ok tab := by
    have := h1 0 (D m.cap m.shift s p) 1 (by omega) (by omega)
    have e2 : fwd m.cap (s.hash / 2 ^ m.shift) (D m.cap m.shift s p) = p := fwd_pdist ha hpl
    rw [e2] at this
    simp only [eraseLoop, hp, Option.any_some, and_self, decide_true, if_true, bind, Except.bind] at this
    unfold fixIn
    cases hfx : fixLoop m.cap m.shift (m.cap + 2) (m.data.set p none) p with
    | error e => rw [hfx] at this; cases this
    | ok t => rw [hfx] at this; cases this; rfl
  refine within_of (N := m.cap + 2) (fun f hf => fix_more _ _ _ hf) ?_ hbig
  intro hh
  have hcl := (slots_clear hp).length_eq
  simp only [List.length_cons] at hcl
  rw [entries_eq] at hh
  have hx := fix_hang hpl (slots m.data).length (m.data.set p none) 0 (by omega)
    (by rw [fwd_zero hpl]; exact hh)
  have hn1 := nxt_lt hpl
  have := run_le hn1 (slots m.data).length (m.data.set p none) (by omega) (fun j hj => by
    obtain ⟨s', hs'⟩ := hx j hj
    refine ⟨s', ?_⟩
    have : fwd m.cap (nxt m.cap p) j = fwd m.cap p (0 + 1 + j) := by
      have hz : nxt m.cap p = fwd m.cap p 1 := by
        have := fwd_succ hpl (show 0 < m.cap by omega); rwa [fwd_zero hpl] at this
      rw [hz]; unfold fwd; split <;> split <;> split <;> omega
    rw [this]; exact hs')
  omega

/-- **C165** for erasing, present or not: never more than the capacity, and one more. -/
theorem C165_erase_capacity {H : K → Nat} (hH : ∀ k, H k < 2 ^ 64) {lim : Nat} (hlim : lim < 2 ^ 62)
    {d : V} {m : Map K V} (hr : Reachable H lim d m) (hc : m.cap ≠ 0) (k : K) :
    ∃ x, Within (m.cap + 1) (eraseIn H m k) x := by
  have h := hr.inv ⟨hH⟩ hlim
  have ht := h.tab hc
  by_cases hk : k ∈ (slots m.data).map Slot.key
  · obtain ⟨s, hs, rfl⟩ := List.mem_map.mp hk
    obtain ⟨p, hp⟩ := mem_slots.mp hs
    obtain ⟨tab, h1, _⟩ := C165_erase_partial hH hlim hr hp
    refine ⟨_, fun f hf => h1 f ?_⟩
    have := h.cnt; have := h.le; have := h.us
    rw [entries_eq]; omega
  · refine ⟨none, fun f hf => ?_⟩
    unfold eraseIn
    rw [shr_ok ht]
    rcases erase_absent ⟨hH⟩ ht hk f (H k / 2 ^ m.shift) 0 (ht.rng _ (hH k)) (by omega) with e | e
    · exact e
    · omega

/-- **C165 is false** for erasing a key that is not there: an empty slot does not end the search. In a
map of `2^e` slots with one entry, made by `Map(2^e)` and one insertion, the search goes over `2^e`
slots, where a lookup of the same key looks at one. -/
theorem C165_erase_false (e : Nat) (h2 : 2 ≤ e) (h61 : e ≤ 61) :
    ∃ (H : Nat → Nat) (m : Map Nat Nat), (∀ k, H k < 2 ^ 64) ∧ Reachable H (2 ^ e) 0 m ∧
      entries m = 1 ∧ find H m 1 = .ok none ∧ Within 1 (lookIn H m 1) none ∧
      try_erase H m 1 = .ok (m, false) ∧ AtLeast (2 ^ e) (eraseIn H m 1) := by
  have hE : 4 ≤ 2 ^ e := by
    have := Nat.pow_le_pow_right (by omega : 0 < 2) h2; simpa using this
  have hE62 : 2 ^ e < 2 ^ 62 := Nat.pow_lt_pow_right (by omega) (by omega)
  have hsplit : 2 ^ (64 - e) * 2 ^ e = 2 ^ 64 := by rw [← Nat.pow_add]; congr 1; omega
  have hS : 2 ^ (64 - e) < 2 ^ 64 := Nat.pow_lt_pow_right (by omega) (by omega)
  have hS1 : 1 < 2 ^ (64 - e) := Nat.one_lt_two_pow (by omega)
  -- the shift
  have hctlz : Math.ctlz 64 (2 ^ e) + 1 = 64 - e := by
    obtain ⟨a, b, c, g⟩ := Math.log2_spec (w := 64) (x := 2 ^ e) (by omega) (by omega)
    have b' := (Nat.pow_le_pow_iff_right (by omega : 1 < 2)).mp b
    have c' := (Nat.pow_lt_pow_iff_right (by omega : 1 < 2)).mp c
    omega
  have hnp : Math.next_pow2 64 (2 ^ e) = .ok (2 ^ e) := by
    obtain ⟨r, er, _, hle, hmin⟩ := C01_next_pow2 (w := 64) (x := 2 ^ e) (by omega) (by omega) (by omega)
    have := hmin (2 ^ e) ⟨e, rfl⟩ (Nat.le_refl _)
    rw [er, show r = 2 ^ e by omega]
  obtain ⟨H, hH⟩ : ∃ H : Nat → Nat, H = fun k => if k = 0 then 1 else 2 ^ (64 - e) := ⟨_, rfl⟩
  have hH0 : H 0 = 1 := by rw [hH]; rfl
  have hH1 : H 1 = 2 ^ (64 - e) := by rw [hH]; rfl
  have hlt : ∀ k, H k < 2 ^ 64 := by intro k; rw [hH]; dsimp only; split <;> omega
  obtain ⟨tab, htab⟩ : ∃ t : List (Option (Slot Nat Nat)),
    t = (List.replicate (2 ^ e) none).set 0 (some ⟨1, 0, 0⟩) := ⟨_, rfl⟩
  have h0 : tab[0]? = some (some ⟨1, 0, 0⟩) := by
    rw [htab, List.getElem?_set_self (by simp)]
  have hn : ∀ i, 1 ≤ i → i < 2 ^ e → tab[i]? = some none := by
    intro i hi hi'
    rw [htab, List.getElem?_set_ne (by omega), List.getElem?_replicate, if_pos hi']
  obtain ⟨m, hm⟩ : ∃ m : Map Nat Nat, m = ⟨tab, 2 ^ e, 1, 2 ^ e / 4 * 3, 64 - e⟩ := ⟨_, rfl⟩
  have hmk : withCapacity (K := Nat) (V := Nat) (2 ^ e) (2 ^ e) =
      .ok ⟨List.replicate (2 ^ e) none, 2 ^ e, 0, 2 ^ e / 4 * 3, 64 - e⟩ := by
    unfold withCapacity allocZero
    rw [hnp]
    simp only [bind, Except.bind, if_neg (Nat.lt_irrefl (2 ^ e)), gt_iff_lt, pure, Except.pure, hctlz]
  have hins : Map.insert H (2 ^ e) (⟨List.replicate (2 ^ e) none, 2 ^ e, 0, 2 ^ e / 4 * 3, 64 - e⟩ : Map Nat Nat)
      0 0 = .ok (m, 0) := by
    have hf : isFull (⟨List.replicate (2 ^ e) none, 2 ^ e, 0, 2 ^ e / 4 * 3, 64 - e⟩ : Map Nat Nat)
        = false := by
      unfold isFull; simp only [decide_eq_false_iff_not]; omega
    have hz : 1 / 2 ^ (64 - e) = 0 := Nat.div_eq_of_lt hS1
    unfold Map.insert insert_slot shr
    rw [hf, hH0, hm, htab]
    simp only [Bool.false_eq_true, if_false, pure, Except.pure, bind, Except.bind,
      if_pos (show 64 - e < 64 by omega), hz, insertLoop, List.getElem?_replicate,
      if_pos (show 0 < 2 ^ e by omega), Option.getD_none]
  have hreach : Reachable H (2 ^ e) 0 m := by
    refine .step (op := .insert 0 0) (out := .val 0) (.make (n := 2 ^ e) (by omega) (by omega) hmk)
      (by intro n h; cases h) ?_
    have hv : m.valAt 0 = .ok 0 := by rw [hm]; unfold valAt; dsimp only; rw [h0]
    simp only [Map.step, hins, bind, Except.bind, hv, pure, Except.pure]
  have hi := hreach.inv ⟨hlt⟩ hE62
  have hidx : 2 ^ (64 - e) / 2 ^ (64 - e) = 1 := Nat.div_self (by omega)
  have hcap : m.cap = 2 ^ e := by rw [hm]
  have ht := hi.tab (by omega)
  have hlook : ∀ f, lookIn H m 1 (f + 1) = .ok none := by
    intro f
    unfold lookIn
    rw [shr_ok ht, hH1, hm]
    simp only [bind, Except.bind, hidx, findLoop, hn 1 (Nat.le_refl _) (by omega)]
  have habs : 1 ∉ (slots m.data).map Slot.key := by
    intro h
    obtain ⟨s, hs, hk⟩ := List.mem_map.mp h
    obtain ⟨p, hp⟩ := mem_slots.mp hs
    have hpl := ht.len ▸ lt_of_get hp
    rw [hm] at hp; dsimp only at hp
    by_cases hp0 : p = 0
    · subst hp0; rw [h0] at hp; cases hp; cases hk
    · rw [hn p (by omega) (by omega)] at hp; cases hp
  refine ⟨H, m, hlt, hreach, ?_, hlook _, ?_, ?_, ?_⟩
  · rw [entries_eq, hm]
    dsimp only
    rw [htab]
    obtain ⟨n, hn'⟩ : ∃ n, 2 ^ e = n + 1 := ⟨2 ^ e - 1, by omega⟩
    rw [hn', List.replicate_succ, List.set_cons_zero]
    show ((_ : Slot Nat Nat) :: slots (List.replicate n none)).length = 1
    rw [slots_replicate]; rfl
  · intro f hf
    obtain ⟨f, rfl⟩ : ∃ n, f = n + 1 := ⟨f - 1, by omega⟩
    exact hlook f
  · unfold try_erase
    have he : m.isEmpty = false := by rw [hm]; rfl
    rw [he, shr_ok ht]
    have ha : H 1 / 2 ^ m.shift < m.cap := ht.rng _ (hlt 1)
    rcases erase_absent ⟨hlt⟩ ht habs (m.cap + 2) (H 1 / 2 ^ m.shift) 0 ha (by omega) with h | h
    · simp only [Bool.false_eq_true, if_false, bind, Except.bind, h, pure, Except.pure]
    · omega
  · intro f hf
    unfold eraseIn
    rw [shr_ok ht, hH1, hm]
    have := erase_over (key := 1) (hash := 2 ^ (64 - e)) (show 64 - e < 64 by omega) hn f 0 (by omega)
    rw [Nat.add_zero, if_neg (by omega)] at this
    simp only [bind, Except.bind, hidx]
    exact this

/-- A map of 32 slots whose hash asks for indices 0, 0 and 31: the three entries are 0, 1 and 0 slots
away from where their hashes ask for, and three entries bound every lookup by four slots. -/
example : ∃ m : Map Nat Nat, Reachable (fun k => if k = 2 then 2 ^ 64 - 1 else 1) 32 0 m ∧ m.cap ≠ 0 ∧
    entries m = 3 ∧ find (fun k => if k = 2 then 2 ^ 64 - 1 else 1) m 1 = .ok (some 1) ∧
    lookIn (fun k => if k = 2 then 2 ^ 64 - 1 else 1) m 1 2 = .ok (some 1) ∧
    lookIn (fun k => if k = 2 then 2 ^ 64 - 1 else 1) m 1 1 = .error .hang ∧
    (∀ p s, m.data[p]? = some (some s) → wayTo m s p ≤ 1) := by
  refine ⟨⟨[some ⟨1, 0, 5⟩, some ⟨1, 1, 6⟩] ++ List.replicate 29 none ++ [some ⟨2 ^ 64 - 1, 2, 7⟩],
    32, 3, 24, 59⟩, ?_, by decide, by decide +kernel, by decide +kernel, by decide +kernel,
    by decide +kernel, ?_⟩
  · refine .step (op := .insert 2 7) (out := .val 7) (.step (op := .insert 1 6) (out := .val 6)
      (.step (op := .insert 0 5) (out := .val 5) .nil ?_ rfl) ?_ rfl) ?_ rfl <;>
      (intro n h; cases h)
  · intro p s h
    have hp := lt_of_get h
    have key : ∀ p < 32, (([some ⟨1, 0, 5⟩, some ⟨1, 1, 6⟩] ++ List.replicate 29 none ++
        [some ⟨2 ^ 64 - 1, 2, 7⟩] : List (Option (Slot Nat Nat)))[p]?.join.all
        fun s => (p + 32 - s.hash / 2 ^ 59) % 32 ≤ 1) = true := by decide +kernel
    have := key p hp
    dsimp only at h
    rw [h] at this
    simpa [wayTo] using this

/-- The map of the last theorem with four slots: three turns do not end the search, four do. -/
example : let H : Nat → Nat := fun k => if k = 0 then 1 else 2 ^ 62
    let m : Map Nat Nat := ⟨[some ⟨1, 0, 0⟩, none, none, none], 4, 1, 3, 62⟩
    eraseIn H m 1 3 = .error .hang ∧ eraseIn H m 1 4 = .ok none ∧ lookIn H m 1 1 = .ok none := by
  decide +kernel

end Rpp.Props
