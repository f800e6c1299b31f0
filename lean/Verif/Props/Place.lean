import Verif.Proof.Place

/-!
# Property C160: objects are placed where their type allows

Full statement: every object made in an array of a container, in a `Box`, `Rc`, `Arc`, `Variant`, `Function` or by `Mpool` is at a multiple of its
alignment and inside of the memory for it, for every type. Proved for alignments up to 16, and for `Mpool` for sizes from 16 up and powers
of two; false for larger alignments, and `Mpool` does not compile for the other sizes.
-/

namespace Rpp.Props

open Rpp.Place Rpp.Place.Spec

/-- Every element of an array that `malloc` answers with is at a suitable place, whatever `malloc` answers, exactly for the types of
alignment up to 16. -/
theorem C160_elements_exact (t : Ty) (ht : IsType t) (n : Nat) (hn : 0 < n) :
    (∀ base, Malloc base → ∀ i, i < n → Suits (elem base t i) t ∧ elem base t i + t.size ≤ base + n * t.size) ↔ t.al ≤ 16 := by
  rw [← al_dvd16 ht]
  constructor
  · intro h
    have := (h 16 (Nat.dvd_refl 16) 0 hn).1
    unfold Suits elem at this
    rwa [Nat.zero_mul] at this
  · intro h base hb i hi
    refine ⟨?_, ?_⟩
    · exact Nat.dvd_add (Nat.dvd_trans h hb) (Nat.dvd_trans ht.2.1 (Nat.dvd_mul_left _ _))
    · unfold elem
      have := Nat.mul_le_mul_right t.size (show i + 1 ≤ n by omega)
      rw [Nat.add_mul] at this
      omega

/-- The value of an `Rc` or `Arc` of a type of alignment up to 16 is at a suitable place behind the counter, and inside of what is
allocated. -/
theorem C160_rc (t : Ty) (ht : IsType t) (hal : t.al ≤ 16) (base : Nat) (hb : Malloc base) :
    Suits base ⟨8, 8⟩ ∧ Suits (base + (rcData t).1) t ∧ 8 ≤ (rcData t).1 ∧ (rcData t).1 + t.size ≤ (rcData t).2.size := by
  have h8 : IsType ⟨8, 8⟩ := ⟨⟨3, rfl⟩, Nat.dvd_refl _, by decide⟩
  have hr : rcData t = two ⟨8, 8⟩ t := by
    unfold rcData
    rw [storage_eq ht]
  obtain ⟨h1, h2, h3, _⟩ := two_good h8 ht
  rw [hr]
  exact ⟨Nat.dvd_trans (show (8 : Nat) ∣ 16 by decide) hb,
    Nat.dvd_add (Nat.dvd_trans ((al_dvd16 ht).mpr hal) hb) h3, h1, h2⟩

/-- A `Variant` at a place suitable for it: every alternative is at a suitable place and ends before the index, which is inside. Nothing is
wasted: the index is right behind the largest alternative, the alignment is that of an alternative, and the size is the least one that
holds the index and is a multiple of it, as the static assertions say. -/
theorem C160_variant (ts : List Ty) (h0 : ts ≠ []) (hts : ∀ t ∈ ts, IsType t) (a : Nat) (ha : Suits a (variant ts).2) :
    IsType (variant ts).2 ∧
    (∀ t ∈ ts, Suits a t ∧ t.size ≤ (variant ts).1 ∧ (variant ts).1 < (variant ts).2.size) ∧
    (∃ t ∈ ts, t.size = (variant ts).1) ∧ (∃ t ∈ ts, t.al = (variant ts).2.al) ∧
    (variant ts).2.size ≤ (variant ts).1 + (variant ts).2.al := by
  have hal : ∃ t ∈ ts, (ts.map (·.al)).foldl max 0 = t.al := by
    rcases foldl_max_mem (ts.map (·.al)) 0 with h | h
    · exfalso
      cases ts with
      | nil => exact h0 rfl
      | cons t l =>
        have h1 := (foldl_max_ge ((t :: l).map (·.al)) 0).2 t.al (by simp)
        have h2 := al_pos (hts t List.mem_cons_self)
        omega
    · obtain ⟨t, htm, hte⟩ := List.mem_map.mp h
      exact ⟨t, htm, hte.symm⟩
  obtain ⟨t1, ht1, hal⟩ := hal
  have hmp : 0 < max ((ts.map (·.al)).foldl max 0) 1 := by omega
  have hin : (variant ts).1 + 1 ≤ (variant ts).2.size := up_ge hmp
  have hle : (ts.map (·.size)).foldl max 0 ≤ (variant ts).1 := up_ge (by decide)
  have hpow : ∃ k, (variant ts).2.al = 2 ^ k := by
    show ∃ k, max ((ts.map (·.al)).foldl max 0) 1 = 2 ^ k
    rw [hal]
    exact (dvd_max (hts t1 ht1).1 ⟨0, rfl⟩).2.2
  have h1 : 0 < t1.al := al_pos (hts t1 ht1)
  refine ⟨⟨hpow, up_dvd _ _, by omega⟩, fun t ht => ⟨?_, ?_, hin⟩, ?_, ⟨t1, ht1, ?_⟩, ?_⟩
  rotate_left 2
  · have e1 : (variant ts).1 = (ts.map (·.size)).foldl max 0 := by
      show up _ 1 = _
      unfold up
      simp
    rcases foldl_max_mem (ts.map (·.size)) 0 with h | h
    · exfalso
      have h2 := (foldl_max_ge (ts.map (·.size)) 0).2 t1.size (List.mem_map_of_mem ht1)
      have h3 := (hts t1 ht1).2.2
      omega
    · obtain ⟨t, htm, hte⟩ := List.mem_map.mp h
      exact ⟨t, htm, by rw [e1]; exact hte⟩
  · show t1.al = max ((ts.map (·.al)).foldl max 0) 1
    omega
  · show up ((variant ts).1 + 1) (variant ts).2.al ≤ _
    have hp : 0 < (variant ts).2.al := hmp
    have hx := Nat.div_mul_le_self ((variant ts).1 + 1 + (variant ts).2.al - 1) (variant ts).2.al
    unfold up
    omega
  · refine Nat.dvd_trans ?_ ha
    refine pow_dvd_of_le (hts t ht).1 hpow ?_
    have := (foldl_max_ge (ts.map (·.al)) 0).2 t.al (List.mem_map_of_mem ht)
    show t.al ≤ max ((ts.map (·.al)).foldl max 0) 1
    omega
  · have := (foldl_max_ge (ts.map (·.size)) 0).2 t.size (List.mem_map_of_mem ht)
    omega

/-- A `Function` at a place suitable for it: the closures that compile are exactly those of alignment up to 16 that fit, and they are at
a suitable place and end before the table. -/
theorem C160_function (words : Nat) (f : Ty) (hf : IsType f) :
    ((∃ r, function words f = some r) ↔ f.al ≤ 16 ∧ f.size ≤ words * 8) ∧
    ∀ r, function words f = some r → ∀ a, Suits a r.2 →
      Suits a f ∧ f.size ≤ r.1 ∧ Suits (a + r.1) ⟨8, 8⟩ ∧ r.1 + 8 ≤ r.2.size := by
  constructor
  · unfold function
    constructor
    · rintro ⟨r, hr⟩
      by_cases h : f.al ≤ 16 ∧ f.size ≤ words * 8
      · exact h
      · rw [if_neg h] at hr
        cases hr
    · intro h
      exact ⟨_, if_pos h⟩
  · intro r hr a ha
    unfold function at hr
    by_cases h : f.al ≤ 16 ∧ f.size ≤ words * 8
    · rw [if_pos h] at hr
      cases hr
      have h16 : (16 : Nat) ∣ a := ha
      have h1 : words * 8 ≤ (two ⟨words * 8, 16⟩ ⟨8, 8⟩).1 := up_ge (by decide)
      refine ⟨Nat.dvd_trans ((al_dvd16 hf).mpr h.1) h16, Nat.le_trans h.2 h1, ?_, up_ge (by show 0 < max 16 8; decide)⟩
      exact Nat.dvd_add (Nat.dvd_trans (show (8 : Nat) ∣ 16 by decide) h16) (up_dvd _ _)
    · rw [if_neg h] at hr
      cases hr

/-- `Mpool` compiles exactly for the types whose size is at least 16 or a power of two. -/
theorem C160_pool_exact (t : Ty) : (∃ n, mpool t = some n) ↔ 16 ≤ t.size ∨ ∃ k, t.size = 2 ^ k := by
  have hm : (∃ n, mpool t = some n) ↔ alignas (min t.size 16) = some (min t.size 16) := by
    unfold mpool block
    rcases alignas_none (min t.size 16) with h | h
    · rw [h]
      simp
    · rw [h]
      simp
  rw [hm, ← alignas_some]
  by_cases h : 16 ≤ t.size
  · rw [Nat.min_eq_right h]
    exact ⟨fun _ => .inl h, fun _ => ⟨4, rfl⟩⟩
  · rw [Nat.min_eq_left (by omega)]
    exact ⟨fun hk => .inr hk, fun hk => hk.resolve_left h⟩

/-- An object from `Mpool` of alignment up to 16 is at a suitable place and inside of the block, which also has room for the pointer of
the list. -/
theorem C160_pool_partial (t : Ty) (ht : IsType t) (hal : t.al ≤ 16) (n : Nat) (hn : mpool t = some n) (a : Nat) (ha : Malloc a) :
    Suits a t ∧ t.size ≤ n ∧ Suits a ⟨8, 8⟩ ∧ 8 ≤ n := by
  refine ⟨Nat.dvd_trans ((al_dvd16 ht).mpr hal) ha, ?_, Nat.dvd_trans (show (8 : Nat) ∣ 16 by decide) ha, ?_⟩ <;>
  · unfold mpool block at hn
    rcases alignas_none (min t.size 16) with h | h
    · rw [h] at hn
      cases hn
    · rw [h] at hn
      cases hn
      have hs := ht.2.2
      have h1 : t.size ≤ up t.size (min t.size 16) := up_ge (by omega)
      have h2 : max (up t.size (min t.size 16)) 8 ≤ (freeNode ⟨up t.size (min t.size 16), min t.size 16⟩).size :=
        up_ge (by show 0 < max (min t.size 16) 8; omega)
      dsimp only
      omega

/-- The property is false of `Mpool`: three `f32`s do not compile; and of a vector of objects aligned to 32. -/
theorem C160_false : IsType ⟨12, 4⟩ ∧ mpool ⟨12, 4⟩ = none ∧ IsType ⟨32, 32⟩ ∧ Malloc 16 ∧ ¬ Suits (elem 16 ⟨32, 32⟩ 0) ⟨32, 32⟩ := by
  refine ⟨⟨⟨2, rfl⟩, by decide, by decide⟩, by decide +kernel, ⟨⟨5, rfl⟩, by decide, by decide⟩, by unfold Malloc; decide, ?_⟩
  unfold Suits elem
  decide

/-- Non-vacuity: places of ordinary types. -/
example : IsType ⟨24, 8⟩ ∧ mpool ⟨24, 8⟩ = some 32 ∧ mpool ⟨4, 4⟩ = some 8 ∧ rcData ⟨24, 8⟩ = (8, ⟨32, 8⟩) ∧
    rcData ⟨16, 16⟩ = (16, ⟨32, 16⟩) ∧ variant [⟨4, 4⟩, ⟨24, 8⟩] = (24, ⟨32, 8⟩) ∧ function 4 ⟨24, 8⟩ = some (32, ⟨48, 16⟩) := by
  refine ⟨⟨⟨3, rfl⟩, by decide, by decide⟩, ?_, ?_, ?_, ?_, ?_, ?_⟩ <;> decide +kernel

end Rpp.Props
