import Verif.Proof.MapOps
import Verif.Spec.Map
import Verif.Props.Math

/-! The operations of the hash table refine a finite map. -/

namespace Rpp.Map
open Rpp Rpp.Math Rpp.Spec
variable {K V : Type _} [DecidableEq K]

/-- The value stored under `k` in a list of slots. -/
def lk (l : List (Slot K V)) (k : K) : Option V := (l.find? (fun s => s.key = k)).map Slot.val

theorem lk_nil (k : K) : lk ([] : List (Slot K V)) k = none := rfl

theorem lk_cons (s : Slot K V) (l : List (Slot K V)) (k : K) :
    lk (s :: l) k = if s.key = k then some s.val else lk l k := by
  unfold lk
  rw [List.find?_cons]
  by_cases h : s.key = k <;> simp [h]

theorem lk_none {l : List (Slot K V)} {k : K} : lk l k = none ↔ k ∉ l.map Slot.key := by
  induction l with
  | nil => simp [lk_nil]
  | cons s l ih =>
    rw [lk_cons, List.map_cons, List.mem_cons, not_or]
    by_cases h : s.key = k
    · simp [h]
    · rw [if_neg h, ih]
      simp [Ne.symm h]

theorem lk_mem {l : List (Slot K V)} (hn : (l.map Slot.key).Nodup) {k : K} {v : V} :
    lk l k = some v ↔ ∃ s ∈ l, s.key = k ∧ s.val = v := by
  induction l with
  | nil => simp [lk_nil]
  | cons s l ih =>
    rw [List.map_cons, List.nodup_cons] at hn
    rw [lk_cons]
    by_cases h : s.key = k
    · rw [if_pos h]
      constructor
      · intro e; injection e with e
        exact ⟨s, List.mem_cons_self, h, e⟩
      · rintro ⟨t, ht, h1, h2⟩
        rcases List.mem_cons.mp ht with rfl | ht
        · rw [h2]
        · exfalso
          apply hn.1
          rw [h, ← h1]
          exact List.mem_map_of_mem ht
    · rw [if_neg h, ih hn.2]
      constructor
      · rintro ⟨t, ht, h1⟩; exact ⟨t, List.mem_cons_of_mem _ ht, h1⟩
      · rintro ⟨t, ht, h1⟩
        rcases List.mem_cons.mp ht with rfl | ht
        · exact absurd h1.1 h
        · exact ⟨t, ht, h1⟩

theorem lk_perm {l l' : List (Slot K V)} (hn : (l.map Slot.key).Nodup) (hp : l.Perm l') (k : K) :
    lk l k = lk l' k := by
  have hn' := (hp.map Slot.key).nodup_iff.mp hn
  cases h : lk l k with
  | none =>
    rw [lk_none] at h
    symm; rw [lk_none]
    exact fun hm => h ((hp.map Slot.key).mem_iff.mpr hm)
  | some v =>
    rw [lk_mem hn] at h
    symm; rw [lk_mem hn']
    obtain ⟨s, hs, h1⟩ := h
    exact ⟨s, hp.mem_iff.mp hs, h1⟩

/-- The contents of a map. -/
def abs (m : Map K V) : FMap K V := lk (slots m.data)

theorem find_ok {H : K → Nat} (hH : HashOK H) {lim : Nat} {m : Map K V} (h : Inv H lim m)
    (h0 : m.cap ≠ 0) (k : K) :
    (∀ v, abs m k = some v → ∃ p s, find H m k = .ok (some p) ∧ m.data[p]? = some (some s) ∧
      s.key = k ∧ s.val = v ∧ s.hash = H k) ∧
    (abs m k = none → find H m k = .ok none) := by
  have ht := h.tab h0
  constructor
  · intro v hv
    obtain ⟨s, hs, hk, hvs⟩ := (lk_mem h.nodup).mp hv
    obtain ⟨p, hp⟩ := mem_slots.mp hs
    have hh : s.hash = H k := by rw [h.hash s hs, hk]
    have ha := ideal_lt hH ht hp
    have hpl : p < m.cap := ht.len ▸ lt_of_get hp
    have hd : D m.cap m.shift s p < m.cap := pdist_lt ha hpl
    refine ⟨p, s, ?_, hp, hk, hvs, hh⟩
    have := find_present hH ht hp (D m.cap m.shift s p) 0 (m.cap + 2) (by omega) (by omega)
    have e : fwd m.cap (s.hash / 2 ^ m.shift) 0 = s.hash / 2 ^ m.shift := by unfold fwd; simp [ha]
    rw [e, hh, hk] at this
    unfold find
    rw [shr_ok ht]
    exact this
  · intro hn
    unfold find
    rw [shr_ok ht]
    rcases find_absent hH ht (lk_none.mp hn) (m.cap + 2) (H k / 2 ^ m.shift) 0
      (ht.rng _ (hH.lt k)) (by omega) with h1 | h1
    · exact h1
    · omega

theorem len_cap {H : K → Nat} {lim : Nat} {m : Map K V} (h : Inv H lim m) (hl : m.len ≠ 0) :
    m.cap ≠ 0 := by
  have := h.le; have := h.us
  intro h0; rw [h0] at this; omega

theorem len_zero {H : K → Nat} {lim : Nat} {m : Map K V} (h : Inv H lim m) (hl : m.len = 0) (k : K) :
    abs m k = none := by
  have := h.cnt
  have : slots m.data = [] := List.length_eq_zero_iff.mp (by omega)
  unfold abs
  rw [this]; rfl

theorem try_get_ok {H : K → Nat} (hH : HashOK H) {lim : Nat} {m : Map K V} (h : Inv H lim m) (k : K) :
    try_get H m k = .ok (abs m k) := by
  unfold try_get isEmpty
  by_cases hl : m.len = 0
  · rw [if_pos (by simpa using hl), len_zero h hl]; rfl
  · rw [if_neg (by simpa using hl)]
    obtain ⟨h1, h2⟩ := find_ok hH h (len_cap h hl) k
    cases hv : abs m k with
    | none => rw [h2 hv]; rfl
    | some v =>
      obtain ⟨p, s, e1, e2, e3, e4, _⟩ := h1 v hv
      rw [e1]
      simp only [bind, Except.bind, valAt, e2, e4]
      rfl

theorem insert_ok {H : K → Nat} (hH : HashOK H) {lim : Nat} (hlim : lim < 2 ^ 62) {m : Map K V}
    (h : Inv H lim m) (key : K) (val : V) :
    (lim < 3 * m.len + 32 ∧ insert H lim m key val = .error .oom) ∨
    ∃ m' i, insert H lim m key val = .ok (m', i) ∧ Inv H lim m' ∧
      abs m' = (abs m).put key val ∧ m'.valAt i = .ok val ∧ m'.len = m.len + 1 ∧
      (slots m'.data).length = (slots m.data).length + (if abs m key = none then 1 else 0) := by
  -- after the possible growth there is room
  have hgrow : (lim < 3 * m.len + 32 ∧ (if m.isFull then grow lim m else pure m) = .error .oom) ∨
      ∃ g, (if m.isFull then grow lim m else pure m) = .ok g ∧ Inv H lim g ∧
        (slots g.data).Perm (slots m.data) ∧ g.len = m.len ∧ g.len < g.usable := by
    unfold isFull
    have hle := h.le
    have hus := h.us
    by_cases hf : m.len = m.usable
    · rw [if_pos (by simpa using hf)]
      have hn : ∀ n, n = (if m.cap ≠ 0 then 2 * m.cap else 32) → n ≠ 1 ∧ ¬ n ≤ m.cap ∧
          m.len < n / 4 * 3 ∧ n ≤ 3 * m.len + 32 := by
        intro n hn
        by_cases h0 : m.cap = 0
        · rw [if_neg (by simpa using h0)] at hn; omega
        · rw [if_pos h0] at hn
          have := (h.tab h0).two
          omega
      obtain ⟨n1, n2, n3, n4⟩ := hn _ rfl
      rcases reserve_ok hH hlim h (n := if m.cap ≠ 0 then 2 * m.cap else 32) n1 with ⟨hq, he⟩ | ⟨g, e, hg, hp, hl, hc⟩
      · left; exact ⟨by omega, he⟩
      · right
        refine ⟨g, e, hg, hp, hl, ?_⟩
        rw [if_neg n2] at hc
        rw [hg.us, hc, hl]
        exact n3
    · rw [if_neg (by simpa using hf)]
      right
      exact ⟨m, rfl, h, .refl _, rfl, by omega⟩
  unfold insert
  rcases hgrow with ⟨hq, he⟩ | ⟨g, e, hg, hp, hl, hlt⟩
  · left; rw [he]; exact ⟨hq, rfl⟩
  · right
    rw [e]
    simp only [bind, Except.bind]
    have hus := hg.us
    have hcnt := hg.cnt
    have h0 : g.cap ≠ 0 := by intro h0; rw [h0] at hus; omega
    have ht := hg.tab h0
    have habs : abs m = abs g := by
      funext k; exact (lk_perm hg.nodup hp k).symm
    rw [habs]
    have hlen := hp.length_eq
    cases hk : abs g key with
    | none =>
      obtain ⟨t, i, h1, h2, h3, h4⟩ := insert_slot_new hH (fuel := g.cap + 2)
        (slot := ⟨H key, key, val⟩) ht (lk_none.mp hk) rfl (by omega) (by omega)
      rw [h1]
      refine ⟨_, i, rfl, ⟨fun hz => absurd hz h0, fun _ => h2, ?_, hus, ?_, hg.fits, hg.shc⟩, ?_, ?_, ?_, ?_⟩
      · rw [h3.length_eq]; simp only [List.length_cons]; omega
      · simp only; omega
      · funext k
        have : lk (slots t) k = _ := lk_perm h2.nodup h3 k
        rw [lk_cons] at this
        exact this
      · simp only [valAt, h4]
      · simp only [hl]
      · rw [if_pos rfl]
        simp only
        rw [h3.length_eq]; simp only [List.length_cons]; omega
    | some v0 =>
      obtain ⟨s, hs, hks, hvs⟩ := (lk_mem hg.nodup).mp hk
      obtain ⟨p, hpp⟩ := mem_slots.mp hs
      obtain ⟨h1, h2⟩ := insert_slot_old hH (fuel := g.cap + 2) (slot := ⟨H key, key, val⟩) ht hpp
        hks.symm rfl (by omega)
      rw [h1]
      have h3 := slots_set_some hpp (⟨H key, key, val⟩ : Slot K V)
      have hlen3 := h3.length_eq
      simp only [List.length_cons] at hlen3
      refine ⟨_, p, rfl, ⟨fun hz => absurd hz h0, fun _ => h2, ?_, hus, ?_, hg.fits, hg.shc⟩, ?_, ?_, ?_, ?_⟩
      · simp only; omega
      · simp only; omega
      · funext k
        -- both lists, with one more slot of the same key, are permutations of each other
        have hx : abs { g with data := g.data.set p (some ⟨H key, key, val⟩), len := g.len + 1 } k =
            lk (slots (g.data.set p (some (⟨H key, key, val⟩ : Slot K V)))) k := rfl
        rw [hx]
        unfold FMap.put
        by_cases hkk : key = k
        · rw [if_pos hkk, lk_mem h2.nodup]
          exact ⟨⟨H key, key, val⟩, mem_slots.mpr ⟨p, get_set_self hpp⟩, hkk, rfl⟩
        · rw [if_neg hkk]
          have hsk : s.key ≠ k := by rw [hks]; exact hkk
          cases hv : abs g k with
          | none =>
            rw [lk_none]
            intro hm
            obtain ⟨x, hx1, hx2⟩ := List.mem_map.mp hm
            rcases List.mem_cons.mp (h3.mem_iff.mp (List.mem_cons_of_mem _ hx1)) with rfl | hx3
            · exact hkk hx2
            · exact lk_none.mp hv (hx2 ▸ List.mem_map_of_mem hx3)
          | some w =>
            obtain ⟨x, hx1, hx2, hx3⟩ := (lk_mem hg.nodup).mp hv
            rw [lk_mem h2.nodup]
            rcases List.mem_cons.mp (h3.mem_iff.mpr (List.mem_cons_of_mem _ hx1)) with rfl | hx4
            · exact absurd hx2 hsk
            · exact ⟨x, hx4, hx2, hx3⟩
      · simp only [valAt, get_set_self hpp]
      · simp only [hl]
      · rw [if_neg (by simp)]
        simp only
        omega

theorem try_erase_ok {H : K → Nat} (hH : HashOK H) {lim : Nat} {m : Map K V}
    (h : Inv H lim m) (key : K) :
    ∃ m', try_erase H m key = .ok (m', (abs m key).isSome) ∧ Inv H lim m' ∧
      abs m' = (abs m).del key ∧ m.len = m'.len + (if abs m key = none then 0 else 1) ∧
      (slots m.data).length = (slots m'.data).length + (if abs m key = none then 0 else 1) := by
  have hdel : abs m key = none → abs m = (abs m).del key := by
    intro hk
    funext k
    unfold FMap.del
    by_cases e : key = k
    · rw [if_pos e, ← e, hk]
    · rw [if_neg e]
  unfold try_erase isEmpty
  by_cases hl : m.len = 0
  · have hk := len_zero h hl key
    rw [if_pos (by simpa using hl), hk]
    exact ⟨m, rfl, h, hdel hk, rfl, rfl⟩
  · rw [if_neg (by simpa using hl)]
    have h0 := len_cap h hl
    have ht := h.tab h0
    rw [shr_ok ht]
    simp only [bind, Except.bind]
    cases hk : abs m key with
    | none =>
      rcases erase_absent hH ht (lk_none.mp hk) (m.cap + 2) (H key / 2 ^ m.shift) 0
        (ht.rng _ (hH.lt key)) (by omega) with h1 | h1
      · rw [h1]
        exact ⟨m, rfl, h, hdel hk, by rw [if_pos rfl]; omega, by rw [if_pos rfl]; omega⟩
      · omega
    | some v =>
      obtain ⟨s, hs, hks, hvs⟩ := (lk_mem h.nodup).mp hk
      obtain ⟨p, hp⟩ := mem_slots.mp hs
      have hh : s.hash = H key := by rw [h.hash s hs, hks]
      have ha := ideal_lt hH ht hp
      have hpl : p < m.cap := ht.len ▸ lt_of_get hp
      have hd : D m.cap m.shift s p < m.cap := pdist_lt ha hpl
      have hcnt := h.cnt; have hle := h.le; have hus := h.us
      obtain ⟨e, he⟩ := exists_empty m.data (by rw [ht.len]; omega)
      obtain ⟨t, h1, h2, h3⟩ := erase_present hH ht hp he
      have h1 := h1 (D m.cap m.shift s p) 0 (m.cap + 2) (by omega) (by omega)
      have e : fwd m.cap (s.hash / 2 ^ m.shift) 0 = s.hash / 2 ^ m.shift := by unfold fwd; simp [ha]
      rw [e, hh, hks] at h1
      rw [h1]
      have hlen := h3.length_eq
      simp only [List.length_cons] at hlen
      refine ⟨_, rfl, ⟨fun hz => absurd hz h0, fun _ => h2, ?_, hus, ?_, h.fits, h.shc⟩, ?_, ?_, ?_⟩
      · simp only; omega
      · simp only; omega
      · funext k
        have h4 := lk_perm h.nodup h3 k
        rw [lk_cons, hks] at h4
        unfold FMap.del
        by_cases hkk : key = k
        · rw [if_pos hkk]
          have hnd := (h3.map Slot.key).nodup_iff.mp h.nodup
          rw [List.map_cons, List.nodup_cons, hks, hkk] at hnd
          exact lk_none.mpr hnd.1
        · rw [if_neg hkk] at h4 ⊢
          exact h4.symm
      · rw [if_neg (by simp)]; simp only; omega
      · rw [if_neg (by simp)]; exact hlen

theorem assign_ok {H : K → Nat} (hH : HashOK H) {lim : Nat} {m : Map K V}
    (h : Inv H lim m) (key : K) (v : V) :
    (abs m key = none → assign H m key v = .error .die) ∧
    (abs m key ≠ none → ∃ m', assign H m key v = .ok m' ∧ Inv H lim m' ∧
      abs m' = (abs m).put key v ∧ m'.len = m.len ∧
      (slots m'.data).length = (slots m.data).length) := by
  unfold assign isEmpty
  constructor
  · intro hk
    by_cases hl : m.len = 0
    · rw [if_pos (by simpa using hl)]; rfl
    · rw [if_neg (by simpa using hl), (find_ok hH h (len_cap h hl) key).2 hk]
      rfl
  · intro hk
    have hl : m.len ≠ 0 := fun e => hk (len_zero h e key)
    rw [if_neg (by simpa using hl)]
    have h0 := len_cap h hl
    have ht := h.tab h0
    obtain ⟨w, hw⟩ := Option.ne_none_iff_exists'.mp hk
    obtain ⟨p, s, e1, e2, e3, e4, e5⟩ := (find_ok hH h h0 key).1 w hw
    rw [e1]
    simp only [bind, Except.bind, pure, Except.pure, e2]
    have h2 := TabOK_replace ht e2 (slot := { s with val := v }) rfl rfl
    have h3 := slots_set_some e2 { s with val := v }
    have hlen := h3.length_eq
    simp only [List.length_cons] at hlen
    have hcnt := h.cnt
    refine ⟨_, rfl, ⟨fun hz => absurd hz h0, fun _ => h2, by simp only; omega, h.us, h.le, h.fits, h.shc⟩,
      ?_, rfl, by simp only; omega⟩
    funext k
    have hx : abs { m with data := m.data.set p (some { s with val := v }) } k =
        lk (slots (m.data.set p (some { s with val := v }))) k := rfl
    rw [hx]
    unfold FMap.put
    by_cases hkk : key = k
    · rw [if_pos hkk, lk_mem h2.nodup]
      exact ⟨_, mem_slots.mpr ⟨p, get_set_self e2⟩, by rw [← hkk]; exact e3, rfl⟩
    · rw [if_neg hkk]
      have hsk : s.key ≠ k := by rw [e3]; exact hkk
      cases hv : abs m k with
      | none =>
        rw [lk_none]
        intro hm
        obtain ⟨x, hx1, hx2⟩ := List.mem_map.mp hm
        rcases List.mem_cons.mp (h3.mem_iff.mp (List.mem_cons_of_mem _ hx1)) with rfl | hx3
        · exact hsk hx2
        · exact lk_none.mp hv (hx2 ▸ List.mem_map_of_mem hx3)
      | some w =>
        obtain ⟨x, hx1, hx2, hx3⟩ := (lk_mem h.nodup).mp hv
        rw [lk_mem h2.nodup]
        rcases List.mem_cons.mp (h3.mem_iff.mpr (List.mem_cons_of_mem _ hx1)) with rfl | hx4
        · exact absurd hx2 hsk
        · exact ⟨x, hx4, hx2, hx3⟩

theorem clear_ok {H : K → Nat} {lim : Nat} {m : Map K V} (h : Inv H lim m) :
    Inv H lim m.clear ∧ abs m.clear = FMap.empty ∧ slots m.clear.data = [] ∧ m.clear.len = 0 := by
  refine ⟨⟨?_, ?_, ?_, h.us, Nat.zero_le _, h.fits, h.shc⟩, ?_, slots_replicate _, rfl⟩
  · intro h0
    have h0 : m.cap = 0 := h0
    simp [clear, h0]
  · intro h0
    have ht := h.tab h0
    refine ⟨by simp [clear], ht.two, ht.sh, ht.rng, ?_, ?_, ?_⟩
    · intro s hs
      have hs : s ∈ slots (List.replicate m.cap none) := hs
      rw [slots_replicate] at hs; cases hs
    · have : slots m.clear.data = [] := slots_replicate _
      rw [this]; exact List.nodup_nil
    · intro i s hs
      have hs : (List.replicate m.cap none)[i]? = some (some s) := hs
      rw [List.getElem?_replicate] at hs
      split at hs <;> simp at hs
  · have : slots m.clear.data = [] := slots_replicate _
    rw [this]; exact Nat.zero_le _
  · funext k
    have : slots m.clear.data = [] := slots_replicate _
    unfold abs
    rw [this]; rfl

theorem get_or_insert_ok {H : K → Nat} (hH : HashOK H) {lim : Nat} (hlim : lim < 2 ^ 62)
    {m : Map K V} (h : Inv H lim m) (d : V) (key : K) :
    (lim < 3 * m.len + 32 ∧ get_or_insert H lim d m key = .error .oom) ∨
    ∃ m', get_or_insert H lim d m key = .ok (m', (abs m key).getD d) ∧ Inv H lim m' ∧
      abs m' = (if (abs m key).isSome then abs m else (abs m).put key d) ∧
      m'.len = (if (abs m key).isSome then m.len else m.len + 1) ∧
      (m.len = (slots m.data).length → m'.len = (slots m'.data).length) := by
  unfold get_or_insert
  rw [try_get_ok hH h]
  simp only [bind, Except.bind]
  cases hk : abs m key with
  | some v => right; exact ⟨m, rfl, h, by simp, by simp, fun e => e⟩
  | none =>
    rcases insert_ok hH hlim h key d with ⟨hq, he⟩ | ⟨m', i, he, h1, h2, h3, h4, h5⟩
    · left; rw [he]; exact ⟨hq, rfl⟩
    · right
      rw [he]
      simp only [h3]
      refine ⟨m', rfl, h1, by rw [h2]; simp, by simp; omega, ?_⟩
      intro e
      rw [hk, if_pos rfl] at h5
      omega

/-! ### Iteration -/

theorem skip_spec {m : Map K V} (hl : m.data.length = m.cap) :
    ∀ n count, count ≤ m.cap → m.cap ≤ count + n →
      ∃ c, skip m n count = .ok c ∧ count ≤ c ∧ c ≤ m.cap ∧
        slots (m.data.drop count) = slots (m.data.drop c) ∧
        (c < m.cap → ∃ s, m.data[c]? = some (some s)) := by
  intro n
  induction n with
  | zero =>
    intro count h1 h2
    exact ⟨count, rfl, by omega, h1, rfl, fun h => by omega⟩
  | succ n ih =>
    intro count h1 h2
    by_cases hc : count < m.cap
    · have hlt : count < m.data.length := by omega
      cases e : m.data[count]? with
      | none => rw [List.getElem?_eq_none_iff] at e; omega
      | some o =>
        cases o with
        | none =>
          obtain ⟨c, h3, h4, h5, h6, h7⟩ := ih (count + 1) (by omega) (by omega)
          refine ⟨c, ?_, by omega, h5, ?_, h7⟩
          · simp only [skip, hc, if_true, e]; exact h3
          · rw [← h6, List.drop_eq_getElem_cons hlt]
            have := (List.getElem?_eq_some_iff.mp e).2
            rw [this]; rfl
        | some s =>
          refine ⟨count, ?_, by omega, h1, rfl, fun _ => ⟨s, e⟩⟩
          simp only [skip, hc, if_true, e]
    · refine ⟨count, ?_, by omega, h1, rfl, fun h => absurd h hc⟩
      simp only [skip, if_neg hc]

theorem iterLoop_spec {m : Map K V} (hl : m.data.length = m.cap) :
    ∀ fuel count, count ≤ m.cap → m.cap - count < fuel →
      (count < m.cap → ∃ s, m.data[count]? = some (some s)) →
      iterLoop m fuel count = .ok ((slots (m.data.drop count)).map (fun s => (s.key, s.val))) := by
  intro fuel
  induction fuel with
  | zero => intro count _ h; omega
  | succ f ih =>
    intro count h1 h2 h3
    by_cases hc : count = m.cap
    · have : m.data.drop count = [] := List.drop_eq_nil_of_le (by omega)
      simp only [iterLoop, hc, if_true]
      rw [← hc, this]; rfl
    · obtain ⟨s, hs⟩ := h3 (by omega)
      have hlt : count < m.data.length := by omega
      simp only [iterLoop, if_neg hc, hs]
      obtain ⟨c, h4, h5, h6, h7, h8⟩ := skip_spec hl m.cap (count + 1) (by omega) (by omega)
      rw [h4]
      simp only [bind, Except.bind]
      rw [ih c h6 (by omega) h8, List.drop_eq_getElem_cons hlt,
        (List.getElem?_eq_some_iff.mp hs).2]
      have : slots (some s :: m.data.drop (count + 1)) = s :: slots (m.data.drop (count + 1)) := rfl
      rw [this, h7]
      rfl

theorem iter_ok {H : K → Nat} {lim : Nat} {m : Map K V} (h : Inv H lim m) :
    iter m = .ok ((slots m.data).map (fun s => (s.key, s.val))) := by
  have hl : m.data.length = m.cap := by
    by_cases h0 : m.cap = 0
    · rw [h.zero h0, h0]; rfl
    · exact (h.tab h0).len
  unfold iter
  obtain ⟨c, h4, h5, h6, h7, h8⟩ := skip_spec hl m.cap 0 (by omega) (by omega)
  rw [h4]
  simp only [bind, Except.bind]
  rw [iterLoop_spec hl _ c h6 (by omega) h8, ← h7, List.drop_zero]

theorem lists_of {H : K → Nat} {lim : Nat} {m : Map K V} (h : Inv H lim m) :
    (abs m).Lists ((slots m.data).map (fun s => (s.key, s.val))) := by
  have hn := h.nodup
  constructor
  · rw [List.map_map]; exact hn
  · intro k v
    unfold abs
    rw [lk_mem hn, List.mem_map]
    constructor
    · rintro ⟨s, hs, e⟩
      injection e with e1 e2
      exact ⟨s, hs, e1, e2⟩
    · rintro ⟨s, hs, e1, e2⟩
      exact ⟨s, hs, by rw [e1, e2]⟩

/-! ### Programs -/

theorem step_ok {H : K → Nat} (hH : HashOK H) {lim : Nat} (hlim : lim < 2 ^ 62) (d : V)
    (strict : Bool) {m : Map K V} (h : Inv H lim m)
    (hs : strict = true → m.len = (slots m.data).length) (op : MapOp K V)
    (h1 : ∀ n, op = .reserve n → n ≠ 1)
    (h2 : strict = true → ∀ k v, op = .insert k v → abs m k = none) :
    (lim < 3 * m.len + mapDemand [op] ∧ op.Allocates ∧ step H lim d m op = .error .oom) ∨
    (op.Dies (abs m) ∧ step H lim d m op = .error .die) ∨
    (¬ op.Dies (abs m) ∧ ∃ m' out, step H lim d m op = .ok (m', out) ∧ Inv H lim m' ∧
      abs m' = op.next d (abs m) ∧ op.OutOK strict d (abs m) out ∧ m'.len ≤ m.len + 1 ∧
      (strict = true → m'.len = (slots m'.data).length)) := by
  cases op with
  | insert k v =>
    rcases insert_ok hH hlim h k v with ⟨hq, he⟩ | ⟨m', i, he, h3, h4, h5, h6, h7⟩
    · left; exact ⟨by simp only [mapDemand]; omega, trivial, by simp only [step, he]; rfl⟩
    · right; right
      refine ⟨fun hd => hd, m', .val v, ?_, h3, h4, rfl, by omega, ?_⟩
      · simp only [step, he, bind, Except.bind, h5]; rfl
      · intro hst
        rw [h2 hst k v rfl, if_pos rfl] at h7
        have := hs hst
        omega
  | tryGet k =>
    right; right
    exact ⟨fun hd => hd, m, .opt (abs m k), by simp only [step, try_get_ok hH h]; rfl, h, rfl, rfl, by omega, hs⟩
  | get k =>
    right
    cases hk : abs m k with
    | none => left; exact ⟨hk, by simp only [step, Map.get, try_get_ok hH h, hk]; rfl⟩
    | some v =>
      right
      exact ⟨fun (hd : abs m k = none) => by simp [hk] at hd, m, .val v, by simp only [step, Map.get, try_get_ok hH h, hk]; rfl, h, rfl,
        ⟨v, hk, rfl⟩, by omega, hs⟩
  | contains k =>
    right; right
    exact ⟨fun hd => hd, m, .bool (abs m k).isSome,
      by simp only [step, Map.contains, try_get_ok hH h]; rfl, h, rfl, rfl, by omega, hs⟩
  | assign k v =>
    right
    obtain ⟨a1, a2⟩ := assign_ok hH h k v
    by_cases hk : abs m k = none
    · left; exact ⟨hk, by simp only [step, a1 hk]; rfl⟩
    · right
      obtain ⟨m', e, i1, i2, i3, i4⟩ := a2 hk
      refine ⟨hk, m', .unit, by simp only [step, e]; rfl, i1, i2, rfl, by omega, ?_⟩
      intro hst; have := hs hst; omega
  | tryErase k =>
    right; right
    obtain ⟨m', e, i1, i2, i3, i4⟩ := try_erase_ok hH h k
    refine ⟨fun hd => hd, m', .bool (abs m k).isSome, by simp only [step, e]; rfl, i1, i2, rfl, by omega, ?_⟩
    intro hst; have := hs hst; omega
  | erase k =>
    right
    obtain ⟨m', e, i1, i2, i3, i4⟩ := try_erase_ok hH h k
    by_cases hk : abs m k = none
    · left; exact ⟨hk, by simp only [step, Map.erase, e, hk]; rfl⟩
    · right
      obtain ⟨w, hw⟩ := Option.ne_none_iff_exists'.mp hk
      refine ⟨hk, m', .unit, by simp only [step, Map.erase, e, hw]; rfl, i1, i2, rfl, by omega, ?_⟩
      intro hst; have := hs hst; omega
  | getOrInsert k =>
    rcases get_or_insert_ok hH hlim h d k with ⟨hq, he⟩ | ⟨m', e, i1, i2, i4, i3⟩
    · left; exact ⟨by simp only [mapDemand]; omega, trivial, by simp only [step, he]; rfl⟩
    · right; right
      exact ⟨fun hd => hd, m', .val ((abs m k).getD d), by simp only [step, e]; rfl, i1, i2, rfl, by split at i4 <;> omega,
        fun hst => i3 (hs hst)⟩
  | reserve n =>
    rcases reserve_ok hH hlim h (h1 n rfl) with ⟨hq, he⟩ | ⟨m', e, i1, i2, i3, _⟩
    · left; exact ⟨by simp only [mapDemand]; omega, trivial, by simp only [step, he]; rfl⟩
    · right; right
      refine ⟨fun hd => hd, m', .unit, by simp only [step, e]; rfl, i1, ?_, rfl, by omega, ?_⟩
      · funext k; exact lk_perm i1.nodup i2 k
      · intro hst; have := hs hst; have := i2.length_eq; omega
  | clear =>
    right; right
    obtain ⟨i1, i2, i3, i4⟩ := clear_ok h
    refine ⟨fun hd => hd, m.clear, .unit, rfl, i1, i2, rfl, by omega, ?_⟩
    intro _; rw [i3, i4]; rfl
  | iterate =>
    right; right
    exact ⟨fun hd => hd, m, .list _, by simp only [step, iter_ok h]; rfl, h, rfl,
      ⟨_, lists_of h, rfl⟩, by omega, hs⟩
  | length =>
    right; right
    refine ⟨fun hd => hd, m, .num m.len, rfl, h, rfl, ⟨_, _, rfl, lists_of h, ?_⟩, by omega, hs⟩
    rw [List.length_map]
    split
    · exact hs ‹_›
    · exact h.cnt

/-- How a step changes `length()`. -/
theorem step_tally {H : K → Nat} (hH : HashOK H) {lim : Nat} (hlim : lim < 2 ^ 62) (d : V) {m : Map K V} (h : Inv H lim m)
    (op : MapOp K V) (h1 : ∀ n, op = .reserve n → n ≠ 1) {m' : Map K V} {out : MapOut K V}
    (e : step H lim d m op = .ok (m', out)) :
    m'.len = op.tally (abs m) m.len ∧ (op = .length → out = .num m.len) := by
  cases op with
  | insert k v =>
    rcases insert_ok hH hlim h k v with ⟨hq, he⟩ | ⟨m2, i, he, h3, h4, h5, h6, h7⟩
    · simp only [step, he] at e; cases e
    · simp only [step, he, bind, Except.bind, h5] at e; cases e
      exact ⟨h6, by simp⟩
  | tryGet k => simp only [step, try_get_ok hH h] at e; cases e; exact ⟨rfl, by simp⟩
  | get k =>
    cases hk : abs m k with
    | none => simp only [step, Map.get, try_get_ok hH h, hk] at e; cases e
    | some v => simp only [step, Map.get, try_get_ok hH h, hk] at e; cases e; exact ⟨rfl, by simp⟩
  | contains k => simp only [step, Map.contains, try_get_ok hH h] at e; cases e; exact ⟨rfl, by simp⟩
  | assign k v =>
    obtain ⟨a1, a2⟩ := assign_ok hH h k v
    by_cases hk : abs m k = none
    · simp only [step, a1 hk] at e; cases e
    · obtain ⟨m2, e2, i1, i2, i3, i4⟩ := a2 hk
      simp only [step, e2] at e; cases e; exact ⟨i3, by simp⟩
  | tryErase k =>
    obtain ⟨m2, e2, i1, i2, i3, i4⟩ := try_erase_ok hH h k
    simp only [step, e2] at e; cases e
    refine ⟨?_, by simp⟩
    cases hk : abs m k <;> simp [MapOp.tally, hk] at i3 ⊢ <;> omega
  | erase k =>
    obtain ⟨m2, e2, i1, i2, i3, i4⟩ := try_erase_ok hH h k
    cases hk : abs m k with
    | none => simp only [step, Map.erase, e2, hk] at e; cases e
    | some v =>
      simp only [step, Map.erase, e2, hk] at e; cases e
      refine ⟨?_, by simp⟩
      simp [MapOp.tally, hk] at i3 ⊢; omega
  | getOrInsert k =>
    rcases get_or_insert_ok hH hlim h d k with ⟨hq, he⟩ | ⟨m2, e2, i1, i2, i4, i3⟩
    · simp only [step, he] at e; cases e
    · simp only [step, e2] at e; cases e; exact ⟨i4, by simp⟩
  | reserve n =>
    rcases reserve_ok hH hlim h (h1 n rfl) with ⟨hq, he⟩ | ⟨m2, e2, i1, i2, i3, _⟩
    · simp only [step, he] at e; cases e
    · simp only [step, e2] at e; cases e; exact ⟨i3, by simp⟩
  | clear => cases e; exact ⟨rfl, by simp⟩
  | iterate => simp only [step, iter_ok h] at e; cases e; exact ⟨rfl, by simp⟩
  | length => cases e; exact ⟨rfl, fun _ => rfl⟩

theorem run_lengths {H : K → Nat} (hH : HashOK H) {lim : Nat} (hlim : lim < 2 ^ 62) (d : V) :
    ∀ (ops : List (MapOp K V)) (m : Map K V) (outs : List (MapOut K V)), Inv H lim m →
      (∀ op ∈ ops, ∀ n, op = .reserve n → n ≠ 1) → run H lim d m ops = .ok outs →
      MapLengths d (abs m) m.len ops outs := by
  intro ops
  induction ops with
  | nil => intro m outs _ _ e; cases e; trivial
  | cons op ops ih =>
    intro m outs h h1 e
    rcases step_ok hH hlim d false h (by simp) op (h1 op List.mem_cons_self) (by simp) with
      ⟨q, a, e2⟩ | ⟨a, e2⟩ | ⟨a, m', out, e2, i1, i2, i3, i5, i4⟩
    · simp only [run, e2] at e; cases e
    · simp only [run, e2] at e; cases e
    · obtain ⟨t1, t2⟩ := step_tally hH hlim d h op (h1 op List.mem_cons_self) e2
      simp only [run, e2, bind, Except.bind] at e
      cases hr : run H lim d m' ops with
      | error x => rw [hr] at e; cases e
      | ok os =>
        rw [hr] at e; cases e
        refine ⟨t2, fun k hk => ?_, ?_⟩
        · rcases Nat.eq_zero_or_pos m.len with h0 | h0
          · rw [len_zero h h0 k] at hk; cases hk
          · exact h0
        · rw [← i2, ← t1]
          exact ih m' os i1 (fun o ho => h1 o (List.mem_cons_of_mem _ ho)) hr

theorem mapDemand_cons (op : MapOp K V) (ops : List (MapOp K V)) :
    mapDemand (op :: ops) + 32 = mapDemand [op] + mapDemand ops := by
  cases op <;> simp only [mapDemand] <;> omega

theorem mapDemand_pos (ops : List (MapOp K V)) : 3 * ops.length + 32 ≤ mapDemand ops := by
  induction ops with
  | nil => simp [mapDemand]
  | cons op ops ih =>
    have := mapDemand_cons op ops
    have : 35 ≤ mapDemand [op] := by cases op <;> simp only [mapDemand] <;> omega
    simp only [List.length_cons]
    omega

theorem run_ok {H : K → Nat} (hH : HashOK H) {lim : Nat} (hlim : lim < 2 ^ 62) (d : V)
    (strict : Bool) (oom : Prop) : ∀ (ops : List (MapOp K V)) (m : Map K V), Inv H lim m →
      (strict = true → m.len = (slots m.data).length) →
      (∀ op ∈ ops, ∀ n, op = .reserve n → n ≠ 1) →
      (strict = true → NoReinsert d (abs m) ops) →
      (lim < 3 * m.len + mapDemand ops → oom) →
      MapAllowed oom strict d (abs m) ops (run H lim d m ops) := by
  intro ops
  induction ops with
  | nil => intro m _ _ _ _ _; rfl
  | cons op ops ih =>
    intro m h hs h1 h2 ho
    unfold MapAllowed
    have hd := mapDemand_cons op ops
    have hd2 := mapDemand_pos ops
    rcases step_ok hH hlim d strict h hs op (h1 op List.mem_cons_self) (fun hst => (h2 hst).1) with
      ⟨q, a, e⟩ | ⟨a, e⟩ | ⟨a, m', out, e, i1, i2, i3, i5, i4⟩
    · left; exact ⟨ho (by omega), a, by simp only [run, e]; rfl⟩
    · right; left; exact ⟨a, by simp only [run, e]; rfl⟩
    · right; right
      refine ⟨a, out, i3, run H lim d m' ops, ?_, ?_⟩
      · rw [← i2]
        have : 35 ≤ mapDemand [op] := by cases op <;> simp only [mapDemand] <;> omega
        exact ih m' i1 i4 (fun o ho => h1 o (List.mem_cons_of_mem _ ho))
          (fun hst => by rw [i2]; exact (h2 hst).2) (fun hq => ho (by omega))
      · simp only [run, e, bind, Except.bind]
        cases run H lim d m' ops <;> rfl

theorem Inv.of_capacity {H : K → Nat} {lim n : Nat} (hlim : lim < 2 ^ 62) (hn : n < 2 ^ 64) (h1 : n ≠ 1)
    {m : Map K V} (h : withCapacity lim n = .ok m) :
    Inv H lim m ∧ m.len = 0 ∧ slots m.data = [] ∧ (m.cap = 0 ∨ ∃ k, m.cap = 2 ^ k) := by
  have hp : ∃ c, next_pow2 64 n = .ok c ∧ c ≠ 1 ∧ (c = 0 ∨ ∃ k, c = 2 ^ k) := by
    by_cases h0 : n = 0
    · subst h0; exact ⟨0, by decide +kernel, by omega, Or.inl rfl⟩
    by_cases hb : n ≤ 2 ^ 63
    · obtain ⟨r, e, ⟨k, hk⟩, hle, _⟩ := Props.C01_next_pow2 (w := 64) (x := n) (by omega) (by omega) hb
      exact ⟨r, e, by omega, Or.inr ⟨k, hk⟩⟩
    · exact ⟨0, Props.C01_next_pow2_overflow (by omega) (by simpa using hb) hn, by omega, Or.inl rfl⟩
  obtain ⟨c, h2, h3, h4⟩ := hp
  unfold withCapacity allocZero at h
  rw [h2] at h
  simp only [bind, Except.bind] at h
  by_cases hl : c > lim
  · rw [if_pos hl] at h; cases h
  · rw [if_neg hl] at h
    simp only [pure, Except.pure, Except.ok.injEq] at h
    subst h
    refine ⟨⟨?_, ?_, ?_, rfl, Nat.zero_le _, by simp only; omega, fun _ => rfl⟩, rfl, slots_replicate _, h4⟩
    · intro h0; simp only at h0; simp [h0]
    · intro h0
      have h0 : c ≠ 0 := h0
      have h5 : 2 ≤ c := by clear h4; omega
      have h6 : c < 2 ^ 64 := by clear h4; omega
      exact TabOK_fresh H h5 h6
    · simp only; rw [slots_replicate]; exact Nat.le_refl _

theorem Reachable.inv {H : K → Nat} (hH : HashOK H) {lim : Nat} (hlim : lim < 2 ^ 62) {d : V}
    {m : Map K V} (h : Reachable H lim d m) : Inv H lim m := by
  induction h with
  | nil => exact Inv.nil H lim
  | make hn h1 h => exact (Inv.of_capacity hlim hn h1 h).1
  | step _ h1 h2 ih =>
    rcases step_ok hH hlim d false ih (by simp) _ h1 (by simp) with
      ⟨q, a, e⟩ | ⟨a, e⟩ | ⟨a, m', out, e, i1, i2, i3, i5, i4⟩
    · rw [e] at h2; cases h2
    · rw [e] at h2; cases h2
    · rw [e] at h2; cases h2; exact i1

/-! ### A full table -/

theorem insert_full {cap shift : Nat} (hs : shift < 64) :
    ∀ (fuel : Nat) (tab : List (Option (Slot K V))) (slot : Slot K V) (idx dist : Nat)
      (placement : Option Nat), tab.length = cap → idx < cap → none ∉ tab →
      slot.key ∉ (slots tab).map Slot.key → ((slots tab).map Slot.key).Nodup →
      insertLoop cap shift fuel tab slot idx dist placement = .error .hang := by
  intro fuel
  induction fuel with
  | zero => intros; rfl
  | succ f ih =>
    intro tab slot idx dist placement hl hi hf hk hn
    cases e : tab[idx]? with
    | none => rw [List.getElem?_eq_none_iff] at e; omega
    | some o =>
      cases o with
      | none => exact absurd (List.mem_of_getElem? e) hf
      | some s =>
        have hsm : s ∈ slots tab := mem_slots.mpr ⟨idx, e⟩
        have hne : ¬ (s.hash = slot.hash ∧ s.key = slot.key) :=
          fun hh => hk (hh.2 ▸ List.mem_map_of_mem hsm)
        have hni : nxt cap idx < cap := nxt_lt hi
        simp only [insertLoop, e, if_neg hne, shr, if_pos hs, bind, Except.bind]
        have hp := (slots_set_some e slot).map Slot.key
        have hboth : (s.key :: (slots (tab.set idx (some slot))).map Slot.key).Nodup := by
          rw [List.map_cons, List.map_cons] at hp
          rw [hp.nodup_iff, List.nodup_cons]
          exact ⟨hk, hn⟩
        rw [List.nodup_cons] at hboth
        split
        · refine ih _ _ _ _ _ (by simpa using hl) hni ?_ hboth.1 hboth.2
          intro hm
          rcases List.mem_or_eq_of_mem_set hm with h1 | h1
          · exact hf h1
          · cases h1
        · exact ih _ _ _ _ _ hl hni hf hk hn

end Rpp.Map
