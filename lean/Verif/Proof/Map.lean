import Verif.Spec.MapRun
import Verif.Model.Map
import Verif.Proof.Math

/-! Lemmas on the hash table: the Robin Hood invariant and what the loops do under it. -/

namespace Rpp.Map
open Rpp
variable {K V : Type _} [DecidableEq K]

def prv (cap i : Nat) : Nat := if i = 0 then cap - 1 else i - 1

/-- Distance of a slot at index `i` from the index its hash asks for. -/
def D (cap shift : Nat) (s : Slot K V) (i : Nat) : Nat := pdist cap (s.hash / 2 ^ shift) i

/-- Robin Hood invariant: a slot away from its ideal index has a predecessor that is at most one
step better off. -/
def RH (cap shift : Nat) (tab : List (Option (Slot K V))) : Prop :=
  ∀ i s, tab[i]? = some (some s) → 0 < D cap shift s i →
    ∃ s', tab[prv cap i]? = some (some s') ∧ D cap shift s i ≤ D cap shift s' (prv cap i) + 1

structure HashOK (H : K → Nat) : Prop where
  lt : ∀ k, H k < 2 ^ 64

structure TabOK (H : K → Nat) (cap shift : Nat) (tab : List (Option (Slot K V))) : Prop where
  len : tab.length = cap
  two : 2 ≤ cap
  sh : shift < 64
  rng : ∀ x, x < 2 ^ 64 → x / 2 ^ shift < cap
  hash : ∀ s ∈ slots tab, s.hash = H s.key
  nodup : ((slots tab).map Slot.key).Nodup
  rh : RH cap shift tab

/-! ### Lists of slots -/

theorem split_at {tab : List (Option (Slot K V))} {i : Nat} {o : Option (Slot K V)}
    (h : tab[i]? = some o) : tab = tab.take i ++ o :: tab.drop (i + 1) := by
  obtain ⟨hi, rfl⟩ := List.getElem?_eq_some_iff.mp h
  rw [← List.drop_eq_getElem_cons hi, List.take_append_drop]

theorem lt_of_get {tab : List (Option (Slot K V))} {i : Nat} {o : Option (Slot K V)}
    (h : tab[i]? = some o) : i < tab.length := (List.getElem?_eq_some_iff.mp h).1

theorem set_split {tab : List (Option (Slot K V))} {i : Nat} {o : Option (Slot K V)}
    (h : tab[i]? = some o) (o' : Option (Slot K V)) :
    tab.set i o' = tab.take i ++ o' :: tab.drop (i + 1) :=
  List.set_eq_take_append_cons_drop.trans (if_pos (lt_of_get h))

theorem slots_split (a b : List (Option (Slot K V))) (o : Option (Slot K V)) :
    (slots (a ++ o :: b)).Perm (o.toList ++ (slots a ++ slots b)) := by
  unfold slots
  rw [List.filterMap_append]
  cases o with
  | none => simp
  | some x =>
    simp only [List.filterMap_cons, Option.toList]
    exact List.perm_middle

theorem slots_set {tab : List (Option (Slot K V))} {i : Nat} {o : Option (Slot K V)}
    (h : tab[i]? = some o) (o' : Option (Slot K V)) :
    (o.toList ++ slots (tab.set i o')).Perm (o'.toList ++ slots tab) := by
  rw [set_split h]
  have e := slots_split (tab.take i) (tab.drop (i + 1)) o
  rw [← split_at h] at e
  refine ((slots_split _ _ o').append_left _).trans ?_
  refine List.Perm.trans ?_ (e.symm.append_left _)
  rw [← List.append_assoc, ← List.append_assoc (bs := o.toList)]
  exact (List.perm_append_comm).append_right _

theorem slots_set_none {tab : List (Option (Slot K V))} {i : Nat} (h : tab[i]? = some none)
    (y : Slot K V) : (slots (tab.set i (some y))).Perm (y :: slots tab) := by
  simpa using slots_set h (some y)

theorem slots_set_some {tab : List (Option (Slot K V))} {i : Nat} {x : Slot K V}
    (h : tab[i]? = some (some x)) (y : Slot K V) :
    (x :: slots (tab.set i (some y))).Perm (y :: slots tab) := by
  simpa using slots_set h (some y)

theorem slots_clear {tab : List (Option (Slot K V))} {i : Nat} {x : Slot K V}
    (h : tab[i]? = some (some x)) : (slots tab).Perm (x :: slots (tab.set i none)) := by
  simpa using (slots_set h none).symm

theorem mem_slots {tab : List (Option (Slot K V))} {s : Slot K V} :
    s ∈ slots tab ↔ ∃ i : Nat, tab[i]? = some (some s) := by
  unfold slots
  rw [List.mem_filterMap]
  constructor
  · rintro ⟨o, ho, e⟩
    have e : o = some s := e
    subst e
    obtain ⟨i, hi, e⟩ := List.mem_iff_getElem.mp ho
    exact ⟨i, by rw [List.getElem?_eq_getElem hi, e]⟩
  · rintro ⟨i, hi⟩
    exact ⟨some s, List.mem_of_getElem? hi, rfl⟩

theorem uniq {tab : List (Option (Slot K V))} (hn : ((slots tab).map Slot.key).Nodup) {i j : Nat}
    {s t : Slot K V} (hi : tab[i]? = some (some s)) (hj : tab[j]? = some (some t))
    (hk : s.key = t.key) : i = j := by
  by_contra hne
  have h1 := ((slots_clear hi).map Slot.key).nodup_iff.mp hn
  rw [List.map_cons, List.nodup_cons] at h1
  apply h1.1
  rw [hk]
  refine List.mem_map_of_mem (mem_slots.mpr ⟨j, ?_⟩)
  rw [List.getElem?_set_ne hne]
  exact hj

theorem exists_empty : ∀ (tab : List (Option (Slot K V))), (slots tab).length < tab.length →
    ∃ e : Nat, tab[e]? = some none := by
  intro tab
  induction tab with
  | nil => intro h; simp [slots] at h
  | cons o tab ih =>
    intro h
    cases o with
    | none => exact ⟨0, rfl⟩
    | some s =>
      obtain ⟨e, he⟩ := ih (by simpa [slots] using h)
      exact ⟨e + 1, by simpa using he⟩

theorem slots_replicate (n : Nat) : slots (List.replicate n (none : Option (Slot K V))) = [] := by
  induction n with
  | zero => rfl
  | succ n ih => rw [List.replicate_succ]; exact ih

/-! ### Circular distances -/

theorem pdist_lt {cap a i : Nat} (ha : a < cap) (hi : i < cap) : pdist cap a i < cap := by
  unfold pdist; split <;> omega

theorem nxt_lt {cap i : Nat} (hi : i < cap) : nxt cap i < cap := by
  unfold nxt; split <;> omega

theorem prv_lt {cap i : Nat} (hi : i < cap) : prv cap i < cap := by
  unfold prv; split <;> omega

theorem prv_nxt {cap i : Nat} (hi : i < cap) : prv cap (nxt cap i) = i := by
  unfold prv nxt; split <;> simp <;> omega

theorem nxt_prv {cap i : Nat} (hi : i < cap) : nxt cap (prv cap i) = i := by
  unfold prv nxt; split <;> split <;> omega

theorem pdist_nxt {cap a i : Nat} (ha : a < cap) (hi : i < cap) (h : pdist cap a i + 1 < cap) :
    pdist cap a (nxt cap i) = pdist cap a i + 1 := by
  unfold pdist nxt at *
  by_cases h1 : a ≤ i
  · rw [if_pos h1] at h ⊢
    by_cases h2 : i + 1 = cap
    · rw [if_pos h2]; split <;> omega
    · rw [if_neg h2, if_pos (by omega)]; omega
  · rw [if_neg h1] at h ⊢
    rw [if_neg (by omega : ¬ i + 1 = cap), if_neg (by omega)]; omega

theorem pdist_zero {cap a i : Nat} (ha : a < cap) (hi : i < cap) : pdist cap a i = 0 ↔ a = i := by
  unfold pdist; split <;> omega

/-- One step towards `e` brings it one closer. -/
theorem pdist_from_nxt {cap i e : Nat} (hi : i < cap) (he : e < cap) (h : i ≠ e) :
    pdist cap (nxt cap i) e + 1 = pdist cap i e := by
  unfold pdist nxt
  by_cases h2 : i + 1 = cap
  · rw [if_pos h2]; split <;> split <;> omega
  · rw [if_neg h2]; split <;> split <;> omega

/-- Index `j` steps after `a`. -/
def fwd (cap a j : Nat) : Nat := if a + j < cap then a + j else a + j - cap

theorem fwd_pdist {cap a p : Nat} (ha : a < cap) (hp : p < cap) : fwd cap a (pdist cap a p) = p := by
  unfold fwd pdist
  split <;> split <;> omega

theorem fwd_succ {cap a j : Nat} (ha : a < cap) (hj : j < cap) :
    nxt cap (fwd cap a j) = fwd cap a (j + 1) := by
  unfold fwd nxt
  by_cases h : a + j < cap
  · rw [if_pos h]; split <;> split <;> omega
  · rw [if_neg h]; split <;> split <;> omega

theorem prv_fwd {cap a j : Nat} (ha : a < cap) (hj : j < cap) :
    prv cap (fwd cap a (j + 1)) = fwd cap a j := by
  rw [← fwd_succ ha hj]
  refine prv_nxt ?_
  unfold fwd; split <;> omega

theorem shr_ok {H : K → Nat} {cap shift : Nat} {tab : List (Option (Slot K V))}
    (h : TabOK H cap shift tab) (x : Nat) : shr x shift = .ok (x / 2 ^ shift) := by
  unfold shr; rw [if_pos h.sh]

theorem ideal_lt {H : K → Nat} (hH : HashOK H) {cap shift : Nat} {tab : List (Option (Slot K V))}
    (h : TabOK H cap shift tab) {i : Nat} {s : Slot K V} (hi : tab[i]? = some (some s)) :
    s.hash / 2 ^ shift < cap := by
  rw [h.hash s (mem_slots.mpr ⟨i, hi⟩)]
  exact h.rng _ (hH.lt _)

/-- Everything between the ideal index of a slot and the slot is occupied, at distances no smaller
than those of the probe. -/
theorem reach {H : K → Nat} (hH : HashOK H) {cap shift : Nat} {tab : List (Option (Slot K V))}
    (h : TabOK H cap shift tab) {p : Nat} {s : Slot K V} (hp : tab[p]? = some (some s)) :
    ∀ n j, j + n = D cap shift s p →
      ∃ s', tab[fwd cap (s.hash / 2 ^ shift) j]? = some (some s') ∧
        j ≤ D cap shift s' (fwd cap (s.hash / 2 ^ shift) j) := by
  have ha := ideal_lt hH h hp
  have hpl : p < cap := h.len ▸ lt_of_get hp
  have hd : D cap shift s p < cap := pdist_lt ha hpl
  intro n
  induction n with
  | zero =>
    intro j hj
    have : j = D cap shift s p := by omega
    subst this
    have e : fwd cap (s.hash / 2 ^ shift) (D cap shift s p) = p := fwd_pdist ha hpl
    rw [e]
    exact ⟨s, hp, by omega⟩
  | succ n ih =>
    intro j hj
    obtain ⟨s1, h1, h2⟩ := ih (j + 1) (by omega)
    obtain ⟨s2, h3, h4⟩ := h.rh _ s1 h1 (by omega)
    rw [prv_fwd ha (by omega)] at h3 h4
    exact ⟨s2, h3, by omega⟩

/-! ### Lookup -/

theorem find_present {H : K → Nat} (hH : HashOK H) {cap shift : Nat}
    {tab : List (Option (Slot K V))} (h : TabOK H cap shift tab) {p : Nat} {s : Slot K V}
    (hp : tab[p]? = some (some s)) :
    ∀ n j fuel, j + n = D cap shift s p → n < fuel →
      findLoop cap shift tab s.hash s.key fuel (fwd cap (s.hash / 2 ^ shift) j) j = .ok (some p) := by
  have ha := ideal_lt hH h hp
  have hpl : p < cap := h.len ▸ lt_of_get hp
  have hd : D cap shift s p < cap := pdist_lt ha hpl
  intro n
  induction n with
  | zero =>
    intro j fuel hj hf
    obtain ⟨f, rfl⟩ : ∃ f, fuel = f + 1 := ⟨fuel - 1, by omega⟩
    have : j = D cap shift s p := by omega
    subst this
    have e : fwd cap (s.hash / 2 ^ shift) (D cap shift s p) = p := fwd_pdist ha hpl
    rw [e]
    simp only [findLoop, hp, and_self, if_true]
  | succ n ih =>
    intro j fuel hj hf
    obtain ⟨f, rfl⟩ : ∃ f, fuel = f + 1 := ⟨fuel - 1, by omega⟩
    obtain ⟨s', h1, h2⟩ := reach hH h hp (n + 1) j hj
    have hne : ¬ (s'.hash = s.hash ∧ s'.key = s.key) := by
      rintro ⟨_, hk⟩
      have := uniq h.nodup h1 hp hk
      have e : fwd cap (s.hash / 2 ^ shift) (D cap shift s p) = p := fwd_pdist ha hpl
      rw [← e] at this
      unfold fwd at this
      revert this
      split <;> split <;> omega
    simp only [findLoop, h1]
    rw [if_neg hne, shr_ok h]
    simp only [bind, Except.bind]
    have h2' : ¬ pdist cap (s'.hash / 2 ^ shift) (fwd cap (s.hash / 2 ^ shift) j) < j := by
      unfold D at h2; omega
    rw [if_neg h2', fwd_succ ha (by omega)]
    exact ih (j + 1) f (by omega) (by omega)

theorem find_absent {H : K → Nat} (hH : HashOK H) {cap shift : Nat}
    {tab : List (Option (Slot K V))} (h : TabOK H cap shift tab) {key : K}
    (hk : key ∉ (slots tab).map Slot.key) :
    ∀ fuel idx j, idx < cap → cap < j + fuel →
      findLoop cap shift tab (H key) key fuel idx j = .ok none ∨
      (j ≥ cap ∧ fuel = 0) := by
  intro fuel
  induction fuel with
  | zero => intro idx j _ hf; right; omega
  | succ f ih =>
    intro idx j hi hf
    left
    have hlt : idx < tab.length := by rw [h.len]; exact hi
    cases e : tab[idx]? with
    | none => rw [List.getElem?_eq_none_iff] at e; omega
    | some o =>
      cases o with
      | none => simp only [findLoop, e]
      | some s =>
        have hne : ¬ (s.hash = H key ∧ s.key = key) := by
          rintro ⟨_, e2⟩
          exact hk (e2 ▸ List.mem_map_of_mem (mem_slots.mpr ⟨idx, e⟩))
        simp only [findLoop, e]
        rw [if_neg hne, shr_ok h]
        simp only [bind, Except.bind]
        have hd := pdist_lt (ideal_lt hH h e) hi
        by_cases hc : pdist cap (s.hash / 2 ^ shift) idx < j
        · rw [if_pos hc]; rfl
        · rw [if_neg hc]
          rcases ih (nxt cap idx) (j + 1) (nxt_lt hi) (by omega) with h1 | h1
          · exact h1
          · omega

/-! ### Insertion -/

theorem D_set {cap shift : Nat} {tab : List (Option (Slot K V))} {i j : Nat} {o : Option (Slot K V)}
    {s : Slot K V} (h : (tab.set i o)[j]? = some (some s)) :
    (i = j ∧ o = some s) ∨ (i ≠ j ∧ tab[j]? = some (some s)) := by
  by_cases hij : i = j
  · subst hij
    have hl := lt_of_get h
    rw [List.length_set] at hl
    rw [List.getElem?_set_self hl] at h
    left; exact ⟨rfl, by injection h⟩
  · rw [List.getElem?_set_ne hij] at h
    exact .inr ⟨hij, h⟩

theorem get_set_self {tab : List (Option (Slot K V))} {i : Nat} {o o' : Option (Slot K V)}
    (h : tab[i]? = some o') : (tab.set i o)[i]? = some o :=
  List.getElem?_set_self (lt_of_get h)

/-- Storing `slot` at `idx`, where its predecessor is no more than one step better off and whatever
was there before was no further from home, keeps the Robin Hood invariant. -/
theorem RH_set {cap shift : Nat} {tab : List (Option (Slot K V))} {idx : Nat} {slot : Slot K V}
    {o : Option (Slot K V)} (h2 : 2 ≤ cap) (hl : tab.length = cap) (hr : RH cap shift tab)
    (ho : tab[idx]? = some o) (hw : ∀ s, o = some s → D cap shift s idx ≤ D cap shift slot idx)
    (hp : 0 < D cap shift slot idx →
      ∃ s', tab[prv cap idx]? = some (some s') ∧
        D cap shift slot idx ≤ D cap shift s' (prv cap idx) + 1) :
    RH cap shift (tab.set idx (some slot)) := by
  have hi : idx < cap := hl ▸ lt_of_get ho
  have hprv : prv cap idx ≠ idx := by unfold prv; split <;> omega
  intro i s hs hd
  rcases D_set (cap := cap) (shift := shift) hs with ⟨rfl, e⟩ | ⟨hne, hs⟩
  · injection e with e
    subst e
    obtain ⟨s', h3, h4⟩ := hp hd
    exact ⟨s', by rw [List.getElem?_set_ne (Ne.symm hprv)]; exact h3, h4⟩
  · obtain ⟨s', h3, h4⟩ := hr i s hs hd
    by_cases he : idx = prv cap i
    · subst he
      rw [h3] at ho
      injection ho with ho
      exact ⟨slot, get_set_self h3, by have := hw s' ho.symm; omega⟩
    · exact ⟨s', by rw [List.getElem?_set_ne he]; exact h3, h4⟩

/-- A probe for a key that is not in the table cannot go all the way round. -/
theorem probe_short {H : K → Nat} (hH : HashOK H) {cap shift : Nat}
    {tab : List (Option (Slot K V))} (h : TabOK H cap shift tab) {idx d e : Nat} {s : Slot K V}
    (hs : tab[idx]? = some (some s)) (hd : d < cap) (he : tab[e]? = some none)
    (hp : 0 < d → ∃ s', tab[prv cap idx]? = some (some s') ∧ d ≤ D cap shift s' (prv cap idx) + 1) :
    d + 1 < cap := by
  by_contra hc
  have h2 := h.two
  obtain ⟨s', h3, h4⟩ := hp (by omega)
  have hi : idx < cap := h.len ▸ lt_of_get hs
  have hel : e < cap := h.len ▸ lt_of_get he
  have hpl : prv cap idx < cap := prv_lt hi
  have ha := ideal_lt hH h h3
  have hD : D cap shift s' (prv cap idx) < cap := pdist_lt ha hpl
  have hne : e ≠ idx := by
    intro e'
    rw [e', hs] at he
    injection he with he
    cases he
  -- `e` lies between the ideal index of `s'` and `prv idx`
  have hj : pdist cap (s'.hash / 2 ^ shift) e ≤ D cap shift s' (prv cap idx) := by
    have h6 : cap ≤ D cap shift s' (prv cap idx) + 2 := by omega
    clear h4 hp hc
    unfold D at *
    generalize s'.hash / 2 ^ shift = a at *
    clear h3 hs he
    unfold pdist prv at *
    by_cases h0 : idx = 0
    · subst h0
      rw [if_pos rfl] at *
      split at h6 <;> split <;> omega
    · rw [if_neg h0] at *
      split at h6 <;> split <;> omega
  obtain ⟨s2, h5, _⟩ := reach hH h h3 (D cap shift s' (prv cap idx) -
    pdist cap (s'.hash / 2 ^ shift) e) (pdist cap (s'.hash / 2 ^ shift) e) (by omega)
  rw [fwd_pdist ha hel, he] at h5
  injection h5 with h5
  cases h5

theorem insert_new {H : K → Nat} (hH : HashOK H) {cap shift : Nat} :
    ∀ (fuel : Nat) (tab : List (Option (Slot K V))) (slot : Slot K V) (idx dist : Nat)
      (pl : Option Nat) (e : Nat),
      TabOK H cap shift tab → slot.key ∉ (slots tab).map Slot.key → slot.hash = H slot.key →
      idx < cap → dist = D cap shift slot idx →
      (0 < dist → ∃ s', tab[prv cap idx]? = some (some s') ∧
        dist ≤ D cap shift s' (prv cap idx) + 1) →
      tab[e]? = some none → pdist cap idx e < fuel →
      ∃ tab' i, insertLoop cap shift fuel tab slot idx dist pl = .ok (tab', i) ∧
        TabOK H cap shift tab' ∧ (slots tab').Perm (slot :: slots tab) ∧
        (∀ q, q < cap → pdist cap idx e < pdist cap idx q → tab'[q]? = tab[q]?) ∧
        (pl = none → tab'[i]? = some (some slot)) ∧ (∀ q, pl = some q → i = q) := by
  intro fuel
  induction fuel with
  | zero => intro tab slot idx dist pl e _ _ _ _ _ _ _ hf; omega
  | succ f ih =>
    intro tab slot idx dist pl e h hk hs hi hd hp he hf
    have hlt : idx < tab.length := by rw [h.len]; exact hi
    have hel : e < cap := h.len ▸ lt_of_get he
    have hslot : slot.hash / 2 ^ shift < cap := by rw [hs]; exact h.rng _ (hH.lt _)
    have hdl : dist < cap := by rw [hd]; exact pdist_lt hslot hi
    cases ho : tab[idx]? with
    | none => rw [List.getElem?_eq_none_iff] at ho; omega
    | some o =>
      cases o with
      | none =>
        refine ⟨tab.set idx (some slot), pl.getD idx, by simp only [insertLoop, ho], ?_,
          slots_set_none ho slot, ?_, ?_, ?_⟩
        · have hperm := slots_set_none ho slot
          refine ⟨by rw [List.length_set]; exact h.len, h.two, h.sh, h.rng, ?_, ?_, ?_⟩
          · intro s hm
            rcases List.mem_cons.mp (hperm.mem_iff.mp hm) with rfl | hm
            · exact hs
            · exact h.hash s hm
          · rw [(hperm.map Slot.key).nodup_iff, List.map_cons, List.nodup_cons]
            exact ⟨hk, h.nodup⟩
          · exact RH_set h.two h.len h.rh ho (by intro s hc; cases hc) (by rw [← hd]; exact hp)
        · intro q hq hlt2
          have : idx ≠ q := by
            intro e'
            subst e'
            have := (pdist_zero hi hi).mpr rfl
            omega
          rw [List.getElem?_set_ne this]
        · intro hpl; subst hpl; exact get_set_self ho
        · intro q hq; subst hq; rfl
      | some s =>
        have hne : ¬ (s.hash = slot.hash ∧ s.key = slot.key) := by
          rintro ⟨_, e2⟩
          exact hk (e2 ▸ List.mem_map_of_mem (mem_slots.mpr ⟨idx, ho⟩))
        have hie : idx ≠ e := by
          intro e'
          rw [e', he] at ho
          injection ho with ho
          cases ho
        have hstep := pdist_from_nxt hi hel hie
        have hshort := probe_short hH h ho hdl he hp
        have hsl := ideal_lt hH h ho
        simp only [insertLoop, ho]
        rw [if_neg hne, shr_ok h]
        simp only [bind, Except.bind]
        by_cases hc : pdist cap (s.hash / 2 ^ shift) idx < dist
        · rw [if_pos hc]
          have hperm := slots_set_some ho slot
          have hno : (s.key :: (slots (tab.set idx (some slot))).map Slot.key).Nodup := by
            have := (hperm.map Slot.key)
            rw [List.map_cons, List.map_cons] at this
            rw [this.nodup_iff, List.nodup_cons]
            exact ⟨hk, h.nodup⟩
          rw [List.nodup_cons] at hno
          have hok : TabOK H cap shift (tab.set idx (some slot)) := by
            refine ⟨by rw [List.length_set]; exact h.len, h.two, h.sh, h.rng, ?_, hno.2, ?_⟩
            · intro x hm
              rcases List.mem_cons.mp (hperm.mem_iff.mp (List.mem_cons_of_mem _ hm)) with rfl | hm
              · exact hs
              · exact h.hash x hm
            · refine RH_set h.two h.len h.rh ho ?_ (by rw [← hd]; exact hp)
              intro x hx
              injection hx with hx
              subst hx
              rw [← hd]
              exact hc.le
          obtain ⟨tab', i, h1, h2, h3, h4, h5, h6⟩ := ih (tab.set idx (some slot)) s (nxt cap idx)
            (pdist cap (s.hash / 2 ^ shift) idx + 1) (some (pl.getD idx)) e hok hno.1
            (h.hash s (mem_slots.mpr ⟨idx, ho⟩)) (nxt_lt hi)
            (by unfold D; rw [pdist_nxt hsl hi (by omega)])
            (by
              intro _
              rw [prv_nxt hi]
              refine ⟨slot, get_set_self ho, ?_⟩
              rw [← hd]; omega)
            (by rw [List.getElem?_set_ne hie]; exact he) (by omega)
          have hi' := h6 _ rfl
          have hidx : pdist cap (nxt cap idx) e < pdist cap (nxt cap idx) idx := by
            have : pdist cap (nxt cap idx) idx = cap - 1 := by
              have := h.two
              unfold pdist nxt
              split <;> split <;> omega
            have := pdist_lt hi hel
            omega
          refine ⟨tab', i, h1, h2, h3.trans hperm, ?_, ?_, ?_⟩
          · intro q hq hlt2
            have hqi : idx ≠ q := by
              intro e'
              subst e'
              have := (pdist_zero hi hi).mpr rfl
              omega
            have := pdist_from_nxt hi hq hqi
            rw [h4 q hq (by omega), List.getElem?_set_ne hqi]
          · intro hpl
            subst hpl
            rw [hi', Option.getD_none, h4 idx hi hidx]
            exact get_set_self ho
          · intro q hq
            subst hq
            rw [hi']; rfl
        · rw [if_neg hc]
          obtain ⟨tab', i, h1, h2, h3, h4, h5, h6⟩ := ih tab slot (nxt cap idx) (dist + 1) pl e h hk hs
            (nxt_lt hi)
            (by
              unfold D at hd ⊢
              rw [pdist_nxt hslot hi (by omega), ← hd])
            (by
              intro _
              rw [prv_nxt hi]
              refine ⟨s, ho, ?_⟩
              have : D cap shift s idx = pdist cap (s.hash / 2 ^ shift) idx := rfl
              omega)
            he (by omega)
          refine ⟨tab', i, h1, h2, h3, ?_, h5, h6⟩
          intro q hq hlt2
          have hqi : idx ≠ q := by
            intro e'
            subst e'
            have := (pdist_zero hi hi).mpr rfl
            omega
          have := pdist_from_nxt hi hq hqi
          exact h4 q hq (by omega)

/-- Inserting a key that is present overwrites its slot. -/
theorem insert_old {H : K → Nat} (hH : HashOK H) {cap shift : Nat}
    {tab : List (Option (Slot K V))} (h : TabOK H cap shift tab) {p : Nat} {s slot : Slot K V}
    (hp : tab[p]? = some (some s)) (hk : slot.key = s.key) (hh : slot.hash = s.hash) :
    ∀ n j fuel, j + n = D cap shift s p → n < fuel →
      insertLoop cap shift fuel tab slot (fwd cap (s.hash / 2 ^ shift) j) j none =
        .ok (tab.set p (some slot), p) := by
  have ha := ideal_lt hH h hp
  have hpl : p < cap := h.len ▸ lt_of_get hp
  have hd : D cap shift s p < cap := pdist_lt ha hpl
  intro n
  induction n with
  | zero =>
    intro j fuel hj hf
    obtain ⟨f, rfl⟩ : ∃ f, fuel = f + 1 := ⟨fuel - 1, by omega⟩
    have : j = D cap shift s p := by omega
    subst this
    have e : fwd cap (s.hash / 2 ^ shift) (D cap shift s p) = p := fwd_pdist ha hpl
    rw [e]
    simp only [insertLoop, hp, hk, hh, and_self, if_true]
  | succ n ih =>
    intro j fuel hj hf
    obtain ⟨f, rfl⟩ : ∃ f, fuel = f + 1 := ⟨fuel - 1, by omega⟩
    obtain ⟨s', h1, h2⟩ := reach hH h hp (n + 1) j hj
    have hne : ¬ (s'.hash = slot.hash ∧ s'.key = slot.key) := by
      rintro ⟨_, hk'⟩
      have := uniq h.nodup h1 hp (hk'.trans hk)
      have e : fwd cap (s.hash / 2 ^ shift) (D cap shift s p) = p := fwd_pdist ha hpl
      rw [← e] at this
      unfold fwd at this
      revert this
      split <;> split <;> omega
    simp only [insertLoop, h1]
    rw [if_neg hne, shr_ok h]
    simp only [bind, Except.bind]
    have h2' : ¬ pdist cap (s'.hash / 2 ^ shift) (fwd cap (s.hash / 2 ^ shift) j) < j := by
      unfold D at h2; omega
    rw [if_neg h2', fwd_succ ha (by omega)]
    exact ih (j + 1) f (by omega) (by omega)

/-- Replacing the value (and key object) of a slot keeps the table in order. -/
theorem TabOK_replace {H : K → Nat} {cap shift : Nat}
    {tab : List (Option (Slot K V))} (h : TabOK H cap shift tab) {p : Nat} {s slot : Slot K V}
    (hp : tab[p]? = some (some s)) (hk : slot.key = s.key) (hh : slot.hash = s.hash) :
    TabOK H cap shift (tab.set p (some slot)) := by
  have hperm := slots_set_some hp slot
  have hs := mem_slots.mpr ⟨p, hp⟩
  refine ⟨by rw [List.length_set]; exact h.len, h.two, h.sh, h.rng, ?_, ?_, ?_⟩
  · intro x hm
    rcases List.mem_cons.mp (hperm.mem_iff.mp (List.mem_cons_of_mem _ hm)) with rfl | hm
    · rw [hh, hk]; exact h.hash s hs
    · exact h.hash x hm
  · have := hperm.map Slot.key
    rw [List.map_cons, List.map_cons, hk] at this
    exact (this.cons_inv).nodup_iff.mpr h.nodup
  · have hD : ∀ i, D cap shift slot i = D cap shift s i := by intro i; unfold D; rw [hh]
    refine RH_set h.two h.len h.rh hp ?_ ?_
    · intro x hx
      injection hx with hx
      subst hx
      rw [hD]
    · rw [hD]; exact h.rh p s hp

end Rpp.Map
