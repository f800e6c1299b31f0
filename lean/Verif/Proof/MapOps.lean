import Verif.Proof.Map

/-! Erasing, growing and the operations of the hash table. -/

namespace Rpp.Map
open Rpp Rpp.Math
variable {K V : Type _} [DecidableEq K]

/-! ### Backward shift -/

theorem pdist_away {cap a i : Nat} (ha : a < cap) (hi : i < cap) (h : nxt cap i ≠ a) :
    pdist cap a (nxt cap i) = pdist cap a i + 1 := by
  unfold pdist nxt at *
  by_cases h2 : i + 1 = cap
  · rw [if_pos h2] at h ⊢
    split <;> split <;> omega
  · rw [if_neg h2] at h ⊢
    split <;> split <;> omega

theorem set_same {tab : List (Option (Slot K V))} {i : Nat} {o : Option (Slot K V)}
    (h : tab[i]? = some o) : tab.set i o = tab := by
  obtain ⟨hlt, hv⟩ := List.getElem?_eq_some_iff.mp h
  rw [← hv]
  exact List.set_getElem_self hlt

theorem nxt_ne {cap i : Nat} (h2 : 2 ≤ cap) : nxt cap i ≠ i := by
  unfold nxt; split <;> omega

theorem fix_ok {cap shift : Nat} (h2 : 2 ≤ cap) (hsh : shift < 64) :
    ∀ (fuel : Nat) (tab : List (Option (Slot K V))) (idx e : Nat) (g : Slot K V),
      tab.length = cap → (∀ s ∈ slots tab, s.hash / 2 ^ shift < cap) →
      tab[idx]? = some none → RH cap shift (tab.set idx (some g)) →
      tab[e]? = some none → e ≠ idx → pdist cap idx e < fuel →
      ∃ tab', fixLoop cap shift fuel tab idx = .ok tab' ∧ tab'.length = cap ∧
        RH cap shift tab' ∧ (slots tab').Perm (slots tab) := by
  intro fuel
  induction fuel with
  | zero => intro tab idx e g _ _ _ _ _ _ hf; omega
  | succ f ih =>
    intro tab idx e g hl hid hidx hr he hne hf
    have hi : idx < cap := hl ▸ lt_of_get hidx
    have hel : e < cap := hl ▸ lt_of_get he
    have hnext : (if idx = cap - 1 then 0 else idx + 1) = nxt cap idx := by
      unfold nxt; split <;> split <;> omega
    have hnl := nxt_lt hi
    have hnn := nxt_ne (i := idx) h2
    -- the table itself is in order if the next slot does not want to move
    have hdone : (∀ s, tab[nxt cap idx]? = some (some s) → D cap shift s (nxt cap idx) = 0) →
        RH cap shift tab := by
      intro h0 i s hs hd
      have hin : i ≠ idx := by
        intro e'
        rw [e', hidx] at hs
        injection hs with hs
        cases hs
      have hin2 : i ≠ nxt cap idx := by
        intro e'
        subst e'
        have := h0 s hs
        omega
      obtain ⟨s', h3, h4⟩ := hr i s (by rw [List.getElem?_set_ne (Ne.symm hin)]; exact hs) hd
      have : idx ≠ prv cap i := by
        intro e'
        apply hin2
        rw [e', nxt_prv (hl ▸ lt_of_get hs)]
      rw [List.getElem?_set_ne this] at h3
      exact ⟨s', h3, h4⟩
    unfold fixLoop
    simp only [hnext, bind, Except.bind]
    cases hn : tab[nxt cap idx]? with
    | none => rw [List.getElem?_eq_none_iff] at hn; omega
    | some o =>
      cases o with
      | none =>
        simp only [pure, Except.pure]
        exact ⟨tab, rfl, hl, hdone (by intro s hs; rw [hn] at hs; injection hs with hs; cases hs),
          .refl _⟩
      | some s =>
        have hsl := hid s (mem_slots.mpr ⟨_, hn⟩)
        have hsr : shr s.hash shift = .ok (s.hash / 2 ^ shift) := by unfold shr; rw [if_pos hsh]
        simp only [hsr, pure, Except.pure]
        by_cases hz : nxt cap idx = s.hash / 2 ^ shift
        · rw [if_pos hz]
          refine ⟨tab, rfl, hl, hdone ?_, .refl _⟩
          intro s' hs'
          rw [hn] at hs'
          injection hs' with hs'
          injection hs' with hs'
          subst hs'
          exact (pdist_zero hsl hnl).mpr hz.symm
        · rw [if_neg hz]
          have hD : D cap shift s (nxt cap idx) = D cap shift s idx + 1 := pdist_away hsl hi hz
          have hne2 : e ≠ nxt cap idx := by
            intro e'
            rw [e', hn] at he
            injection he with he
            cases he
          -- the slot after the hole, seen in the table with the ghost
          have hn1 : (tab.set idx (some s))[nxt cap idx]? = some (some s) := by
            rw [List.getElem?_set_ne (Ne.symm hnn)]; exact hn
          have hg := hr (nxt cap idx) s
            (by rw [List.getElem?_set_ne (Ne.symm hnn)]; exact hn) (by omega)
          rw [prv_nxt hi, get_set_self hidx] at hg
          obtain ⟨g', hg1, hg2⟩ := hg
          injection hg1 with hg1
          injection hg1 with hg1
          subst hg1
          have hR : RH cap shift (tab.set idx (some s)) := by
            intro i x hx hd
            rcases D_set (cap := cap) (shift := shift) hx with ⟨rfl, ex⟩ | ⟨hii, hx⟩
            · injection ex with ex
              subst ex
              obtain ⟨s', h3, h4⟩ := hr idx g (get_set_self hidx) (by omega)
              have hprv : idx ≠ prv cap idx := by unfold prv; split <;> omega
              rw [List.getElem?_set_ne hprv] at h3 ⊢
              exact ⟨s', h3, by omega⟩
            · obtain ⟨s', h3, h4⟩ := hr i x (by rw [List.getElem?_set_ne hii]; exact hx) hd
              by_cases hpi : idx = prv cap i
              · have hin : i = nxt cap idx := by
                  rw [hpi, nxt_prv (hl ▸ lt_of_get hx)]
                subst hin
                rw [hn] at hx
                injection hx with hx
                injection hx with hx
                subst hx
                rw [prv_nxt hi]
                exact ⟨s, get_set_self hidx, by omega⟩
              · rw [List.getElem?_set_ne hpi] at h3 ⊢
                exact ⟨s', h3, h4⟩
          have hback : ((tab.set idx (some s)).set (nxt cap idx) none).set (nxt cap idx) (some s) =
              tab.set idx (some s) := by
            rw [List.set_set, set_same hn1]
          have hp1 := slots_set_none hidx s
          have hp2 := slots_clear hn1
          have hperm : (slots ((tab.set idx (some s)).set (nxt cap idx) none)).Perm (slots tab) :=
            (hp2.symm.trans hp1).cons_inv
          obtain ⟨tab', h3, h4, h5, h6⟩ := ih ((tab.set idx (some s)).set (nxt cap idx) none)
            (nxt cap idx) e s (by rw [List.length_set, List.length_set]; exact hl)
            (by intro x hx; exact hid x (hperm.mem_iff.mp hx))
            (get_set_self hn1) (by rw [hback]; exact hR)
            (by rw [List.getElem?_set_ne (Ne.symm hne2), List.getElem?_set_ne (Ne.symm hne)]; exact he)
            hne2 (by have := pdist_from_nxt hi hel (Ne.symm hne); omega)
          exact ⟨tab', h3, h4, h5, h6.trans hperm⟩

/-! ### Erasing -/

theorem erase_present {H : K → Nat} (hH : HashOK H) {cap shift : Nat}
    {tab : List (Option (Slot K V))} (h : TabOK H cap shift tab) {p e : Nat} {s : Slot K V}
    (hp : tab[p]? = some (some s)) (he : tab[e]? = some none) :
    ∃ tab', (∀ n j fuel, j + n = D cap shift s p → n < fuel →
      eraseLoop cap shift tab s.hash s.key fuel (fwd cap (s.hash / 2 ^ shift) j) j =
        .ok (some tab')) ∧ TabOK H cap shift tab' ∧ (slots tab).Perm (s :: slots tab') := by
  have ha := ideal_lt hH h hp
  have hpl : p < cap := h.len ▸ lt_of_get hp
  have hel : e < cap := h.len ▸ lt_of_get he
  have hd : D cap shift s p < cap := pdist_lt ha hpl
  have hep : e ≠ p := by
    intro e'
    rw [e', hp] at he
    injection he with he
    cases he
  have hback : (tab.set p none).set p (some s) = tab := by
    rw [List.set_set, set_same hp]
  have hc := slots_clear hp
  obtain ⟨tab', hf, hl', hr', hperm⟩ := fix_ok h.two h.sh (cap + 2) (tab.set p none) p e s
    (by rw [List.length_set]; exact h.len)
    (by
      intro x hx
      obtain ⟨i, hi⟩ := mem_slots.mp (hc.mem_iff.mpr (List.mem_cons_of_mem _ hx))
      exact ideal_lt hH h hi)
    (get_set_self hp) (by rw [hback]; exact h.rh)
    (by rw [List.getElem?_set_ne (Ne.symm hep)]; exact he) hep
    (by have := pdist_lt hpl hel; omega)
  refine ⟨tab', ?_, ?_, hc.trans (hperm.symm.cons s)⟩
  · intro n
    induction n with
    | zero =>
      intro j fuel hj hf'
      obtain ⟨f, rfl⟩ : ∃ f, fuel = f + 1 := ⟨fuel - 1, by omega⟩
      have : j = D cap shift s p := by omega
      subst this
      have e : fwd cap (s.hash / 2 ^ shift) (D cap shift s p) = p := fwd_pdist ha hpl
      rw [e]
      simp only [eraseLoop, hp, Option.any_some, and_self, decide_true, if_true, hf, bind,
        Except.bind, pure, Except.pure]
    | succ n ih =>
      intro j fuel hj hf'
      obtain ⟨f, rfl⟩ : ∃ f, fuel = f + 1 := ⟨fuel - 1, by omega⟩
      obtain ⟨s', h1, h2⟩ := reach hH h hp (n + 1) j hj
      have hne : ¬ (s'.hash = s.hash ∧ s'.key = s.key) := by
        rintro ⟨_, hk⟩
        have := uniq h.nodup h1 hp hk
        have e : fwd cap (s.hash / 2 ^ shift) (D cap shift s p) = p := fwd_pdist ha hpl
        rw [← e] at this
        unfold fwd at this
        revert this
        split <;> split <;> omega
      simp only [eraseLoop, h1, Option.any_some, decide_eq_true_eq, Option.elim]
      rw [if_neg hne, shr_ok h]
      simp only [bind, Except.bind]
      have h2' : ¬ pdist cap (s'.hash / 2 ^ shift) (fwd cap (s.hash / 2 ^ shift) j) < j := by
        unfold D at h2; omega
      rw [if_neg h2', fwd_succ ha (by omega)]
      exact ih (j + 1) f (by omega) (by omega)
  · have hall := hc.trans (hperm.symm.cons s)
    refine ⟨hl', h.two, h.sh, h.rng, ?_, ?_, hr'⟩
    · intro x hx
      exact h.hash x (hall.mem_iff.mpr (List.mem_cons_of_mem _ hx))
    · have := (hall.map Slot.key).nodup_iff.mp h.nodup
      rw [List.map_cons, List.nodup_cons] at this
      exact this.2

theorem erase_absent {H : K → Nat} (hH : HashOK H) {cap shift : Nat}
    {tab : List (Option (Slot K V))} (h : TabOK H cap shift tab) {key : K}
    (hk : key ∉ (slots tab).map Slot.key) :
    ∀ fuel idx j, idx < cap → cap < j + fuel →
      eraseLoop cap shift tab (H key) key fuel idx j = .ok none ∨ (j ≥ cap ∧ fuel = 0) := by
  intro fuel
  induction fuel with
  | zero => intro idx j _ hf; right; omega
  | succ f ih =>
    intro idx j hi hf
    left
    have hlt : idx < tab.length := by rw [h.len]; exact hi
    cases e : tab[idx]? with
    | none => rw [List.getElem?_eq_none_iff] at e; omega
    | some o =>
      have hne : ¬ (o.any (fun s => decide (s.hash = H key ∧ s.key = key)) = true) := by
        intro ha
        cases o with
        | none => simp at ha
        | some s =>
          simp only [Option.any_some, decide_eq_true_eq] at ha
          exact hk (ha.2 ▸ List.mem_map_of_mem (mem_slots.mpr ⟨idx, e⟩))
      have hb : o.elim 0 Slot.hash / 2 ^ shift < cap := by
        cases o with
        | none => have := h.two; simp; omega
        | some s => exact ideal_lt hH h e
      simp only [eraseLoop, e]
      rw [if_neg hne, shr_ok h]
      simp only [bind, Except.bind]
      have hd := pdist_lt hb hi
      by_cases hc : pdist cap (o.elim 0 Slot.hash / 2 ^ shift) idx < j
      · rw [if_pos hc]; rfl
      · rw [if_neg hc]
        rcases ih (nxt cap idx) (j + 1) (nxt_lt hi) (by omega) with h1 | h1
        · exact h1
        · omega

/-! ### `insert_slot` and `reserve` -/

theorem insert_slot_new {H : K → Nat} (hH : HashOK H) {cap shift fuel : Nat}
    {tab : List (Option (Slot K V))} (h : TabOK H cap shift tab) {slot : Slot K V}
    (hk : slot.key ∉ (slots tab).map Slot.key) (hs : slot.hash = H slot.key)
    (hc : (slots tab).length < cap) (hf : cap < fuel) :
    ∃ tab' i, insert_slot fuel cap shift tab slot = .ok (tab', i) ∧ TabOK H cap shift tab' ∧
      (slots tab').Perm (slot :: slots tab) ∧ tab'[i]? = some (some slot) := by
  obtain ⟨e, he⟩ := exists_empty tab (by rw [h.len]; exact hc)
  have hel : e < cap := h.len ▸ lt_of_get he
  have hslot : slot.hash / 2 ^ shift < cap := by rw [hs]; exact h.rng _ (hH.lt _)
  have hz : D cap shift slot (slot.hash / 2 ^ shift) = 0 := (pdist_zero hslot hslot).mpr rfl
  obtain ⟨tab', i, h1, h2, h3, _, h5, _⟩ := insert_new hH fuel tab slot (slot.hash / 2 ^ shift) 0 none
    e h hk hs hslot hz.symm (by omega) he (by have := pdist_lt hslot hel; omega)
  refine ⟨tab', i, ?_, h2, h3, h5 rfl⟩
  unfold insert_slot
  rw [shr_ok h]
  exact h1

theorem insert_slot_old {H : K → Nat} (hH : HashOK H) {cap shift fuel : Nat}
    {tab : List (Option (Slot K V))} (h : TabOK H cap shift tab) {p : Nat} {s slot : Slot K V}
    (hp : tab[p]? = some (some s)) (hk : slot.key = s.key) (hs : slot.hash = H slot.key)
    (hf : cap < fuel) :
    insert_slot fuel cap shift tab slot = .ok (tab.set p (some slot), p) ∧
      TabOK H cap shift (tab.set p (some slot)) := by
  have hh : slot.hash = s.hash := by
    rw [hs, hk, h.hash s (mem_slots.mpr ⟨p, hp⟩)]
  have ha := ideal_lt hH h hp
  have hpl : p < cap := h.len ▸ lt_of_get hp
  have hd : D cap shift s p < cap := pdist_lt ha hpl
  refine ⟨?_, TabOK_replace h hp hk hh⟩
  unfold insert_slot
  rw [shr_ok h]
  have := insert_old hH h hp hk hh (D cap shift s p) 0 fuel (by omega) (by omega)
  have e : fwd cap (s.hash / 2 ^ shift) 0 = s.hash / 2 ^ shift := by unfold fwd; simp [ha]
  rw [e, ← hh] at this
  exact this

theorem rehash_ok {H : K → Nat} (hH : HashOK H) {cap shift fuel : Nat} (hf : cap < fuel) :
    ∀ (old tab : List (Option (Slot K V))), TabOK H cap shift tab →
      ((slots old).map Slot.key ++ (slots tab).map Slot.key).Nodup →
      (∀ s ∈ slots old, s.hash = H s.key) →
      (slots old).length + (slots tab).length < cap + 1 →
      ∃ tab', rehash fuel cap shift old tab = .ok tab' ∧ TabOK H cap shift tab' ∧
        (slots tab').Perm (slots old ++ slots tab) := by
  intro old
  induction old with
  | nil => intro tab h _ _ _; exact ⟨tab, rfl, h, .refl _⟩
  | cons o old ih =>
    intro tab h hn hh hc
    cases o with
    | none => exact ih tab h hn hh hc
    | some s =>
      have e1 : slots (some s :: old) = s :: slots old := rfl
      rw [e1] at hn hh hc ⊢
      rw [List.map_cons, List.cons_append, List.nodup_cons, List.mem_append, not_or] at hn
      simp only [List.length_cons] at hc
      obtain ⟨t1, i, h1, h2, h3, _⟩ := insert_slot_new hH (fuel := fuel) h hn.1.2
        (hh s (List.mem_cons_self)) (by omega) hf
      have hn2 : ((slots old).map Slot.key ++ (slots t1).map Slot.key).Nodup := by
        have : ((slots old).map Slot.key ++ (slots t1).map Slot.key).Perm
            (s.key :: ((slots old).map Slot.key ++ (slots tab).map Slot.key)) := by
          refine ((h3.map Slot.key).append_left _).trans ?_
          rw [List.map_cons]
          exact List.perm_middle
        rw [this.nodup_iff, List.nodup_cons, List.mem_append, not_or]
        exact ⟨hn.1, hn.2⟩
      obtain ⟨t2, h5, h6, h7⟩ := ih t1 h2 hn2 (fun x hx => hh x (List.mem_cons_of_mem _ hx))
        (by rw [h3.length_eq]; simp only [List.length_cons]; omega)
      refine ⟨t2, ?_, h6, h7.trans ?_⟩
      · simp only [rehash, h1, bind, Except.bind]
        exact h5
      · refine (h3.append_left _).trans ?_
        exact List.perm_middle

theorem shift_ok {cap : Nat} (h2 : 2 ≤ cap) (hc : cap < 2 ^ 64) :
    ctlz 64 cap + 1 < 64 ∧ ∀ x, x < 2 ^ 64 → x / 2 ^ (ctlz 64 cap + 1) < cap := by
  obtain ⟨a, b, c, _⟩ := log2_spec (w := 64) (by omega : 0 < cap) hc
  have h1 : 1 ≤ log2 64 cap := by
    by_contra hh
    have : log2 64 cap = 0 := by omega
    rw [this] at c
    omega
  refine ⟨by omega, ?_⟩
  intro x hx
  refine lt_of_lt_of_le ?_ b
  rw [Nat.div_lt_iff_lt_mul (by positivity), ← Nat.pow_add]
  have : log2 64 cap + (ctlz 64 cap + 1) = 64 := by omega
  rw [this]
  exact hx

theorem TabOK_fresh (H : K → Nat) {cap : Nat} (h2 : 2 ≤ cap) (hc : cap < 2 ^ 64) :
    TabOK (V := V) H cap (ctlz 64 cap + 1) (List.replicate cap none) := by
  obtain ⟨a, b⟩ := shift_ok h2 hc
  refine ⟨by simp, h2, a, b, ?_, ?_, ?_⟩
  · intro s hs; rw [slots_replicate] at hs; cases hs
  · rw [slots_replicate]; exact List.nodup_nil
  · intro i s hs
    rw [List.getElem?_replicate] at hs
    split at hs <;> simp at hs

/-! ### The invariant of the map -/

structure Inv (H : K → Nat) (lim : Nat) (m : Map K V) : Prop where
  zero : m.cap = 0 → m.data = []
  tab : m.cap ≠ 0 → TabOK H m.cap m.shift m.data
  cnt : (slots m.data).length ≤ m.len
  us : m.usable = m.cap / 4 * 3
  le : m.len ≤ m.usable
  fits : m.cap ≤ lim
  shc : m.cap ≠ 0 → m.shift = ctlz 64 m.cap + 1

theorem Inv.nodup {H : K → Nat} {lim : Nat} {m : Map K V} (h : Inv H lim m) :
    ((slots m.data).map Slot.key).Nodup := by
  by_cases h0 : m.cap = 0
  · rw [h.zero h0]; exact List.nodup_nil
  · exact (h.tab h0).nodup

theorem Inv.hash {H : K → Nat} {lim : Nat} {m : Map K V} (h : Inv H lim m) :
    ∀ s ∈ slots m.data, s.hash = H s.key := by
  by_cases h0 : m.cap = 0
  · rw [h.zero h0]; intro s hs; cases hs
  · exact (h.tab h0).hash

theorem Inv.nil (H : K → Nat) (lim : Nat) : Inv H lim (Map.nil : Map K V) :=
  ⟨fun _ => rfl, fun h => absurd rfl h, by simp [Map.nil, slots], by simp [Map.nil], by simp [Map.nil], by simp [Map.nil],
    fun h => absurd rfl h⟩

theorem reserve_ok {H : K → Nat} (hH : HashOK H) {lim : Nat} (hlim : lim < 2 ^ 62) {m : Map K V}
    (h : Inv H lim m) {n : Nat} (h1 : n ≠ 1) :
    (lim < n ∧ reserve lim m n = .error .oom) ∨
    ∃ m', reserve lim m n = .ok m' ∧ Inv H lim m' ∧ (slots m'.data).Perm (slots m.data) ∧
      m'.len = m.len ∧ m'.cap = (if n ≤ m.cap then m.cap else n) := by
  by_cases hn : n ≤ m.cap
  · right
    refine ⟨m, ?_, h, .refl _, rfl, by rw [if_pos hn]⟩
    unfold reserve
    rw [if_pos hn]; rfl
  · by_cases hl : n > lim
    · left
      refine ⟨hl, ?_⟩
      unfold reserve allocZero
      rw [if_neg hn, if_pos hl]
      rfl
    · right
      have hus : m.len < n := by
        have := h.le; have := h.us; omega
      obtain ⟨t, h3, h4, h5⟩ := rehash_ok hH (fuel := n + 2) (by omega) m.data
        (List.replicate n none) (TabOK_fresh H (by omega) (by omega))
        (by rw [slots_replicate, List.map_nil, List.append_nil]; exact h.nodup) h.hash
        (by rw [slots_replicate]; have := h.cnt; simp only [List.length_nil]; omega)
      rw [slots_replicate, List.append_nil] at h5
      refine ⟨⟨t, n, m.len, n / 4 * 3, ctlz 64 n + 1⟩, ?_, ?_, h5, rfl, by rw [if_neg hn]⟩
      · unfold reserve allocZero
        rw [if_neg hn, if_neg hl]
        simp only [bind, Except.bind, h3]
        rfl
      · refine ⟨fun h0 => absurd h0 (by simp only; omega), fun _ => h4, ?_, rfl, ?_, ?_, fun _ => rfl⟩
        · rw [h5.length_eq]; exact h.cnt
        · have := h.le; have := h.us; simp only; omega
        · simp only; omega

end Rpp.Map
