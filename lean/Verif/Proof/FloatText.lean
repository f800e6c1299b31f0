import Verif.Spec.FloatText
import Verif.Proof.Parse
import Verif.Proof.Rounding
import Verif.Proof.Lerp
import Verif.Proof.Ieee

/-!
# Proofs about floating point numbers as text
-/

namespace Rpp.FloatText

open Rpp.Fmt Rpp.Ieee Rpp.Spec Spec

/-! ### Text -/

theorem isdigit_iff (b : Byte) : isdigit b = true ↔ 48#8 ≤ b ∧ b ≤ 57#8 := by
  simp [isdigit]

theorem isdigit_of {ds : List Byte} (h : Digits ds) : ∀ b ∈ ds, isdigit b = true := fun b hb => (isdigit_iff b).mpr (h b hb)

theorem foldl_append_value (ds fs : List Byte) :
    ∀ s, fs.foldl (fun a (d : Byte) => 10 * a + (d.toNat - 48)) s = s * 10 ^ fs.length + whole fs := by
  induction fs with
  | nil => intro s; simp [whole]
  | cons f fs ih =>
    intro s
    show fs.foldl _ (10 * s + (f.toNat - 48)) = _
    rw [ih]
    have h2 : whole (f :: fs) = (f.toNat - 48) * 10 ^ fs.length + whole fs := by
      show fs.foldl _ (10 * 0 + (f.toNat - 48)) = _
      rw [ih]
      simp
    rw [h2, List.length_cons, pow_succ]
    ring

theorem whole_append (ds fs : List Byte) : whole (ds ++ fs) = whole ds * 10 ^ fs.length + whole fs := by
  unfold whole
  rw [List.foldl_append]
  exact foldl_append_value ds fs _

theorem number_eq (ds fs : List Byte) : ((whole (ds ++ fs) : Nat) : Rat) / 10 ^ fs.length = number ds fs := by
  rw [whole_append]
  unfold number
  push_cast
  field_simp

/-- The digits with a point and digits after it. -/
theorem mantissa_point {ds fs r : List Byte} (h1 : Digits ds) (h2 : ds ≠ []) (h3 : Digits fs)
    (h4 : ∀ b, r.head? = some b → isdigit b = false) :
    mantissa 10 isdigit (fun b => b.toNat - 48) (ds ++ (ch '.' :: fs ++ r)) = some (number ds fs, ds.length + (1 + fs.length)) := by
  unfold mantissa
  have e1 : (ds ++ (ch '.' :: fs ++ r)).takeWhile isdigit = ds := takeWhile_all (isdigit_of h1) (by
    intro x hx
    simp at hx
    subst hx
    decide)
  simp only [e1, List.drop_left]
  have e2 : (ch '.' :: fs ++ r).head? = some (ch '.') := rfl
  have e3 : (ch '.' :: fs ++ r).drop 1 = fs ++ r := rfl
  rw [e2, e3, if_pos rfl, if_pos rfl, takeWhile_all (isdigit_of h3) h4, if_neg (by simp [h2])]
  congr 2
  · exact number_eq ds fs
  · omega

/-- The digits without a point. -/
theorem mantissa_whole {ds r : List Byte} (h1 : Digits ds) (h2 : ds ≠ [])
    (h4 : ∀ b, r.head? = some b → isdigit b = false ∧ b ≠ ch '.') :
    mantissa 10 isdigit (fun b => b.toNat - 48) (ds ++ r) = some (number ds [], ds.length) := by
  unfold mantissa
  have e1 : (ds ++ r).takeWhile isdigit = ds := takeWhile_all (isdigit_of h1) (fun x hx => (h4 x hx).1)
  simp only [e1, List.drop_left]
  have e2 : ¬ r.head? = some (ch '.') := fun hx => (h4 _ hx).2 rfl
  rw [if_neg e2, if_neg e2, if_neg (by simp [h2])]
  congr 2
  have := number_eq ds []
  rw [List.append_nil] at this
  rw [List.append_nil]
  exact this

/-- No exponent. -/
theorem exponent_none {r : List Byte} (h : ∀ b, r.head? = some b → b ≠ ch 'e' ∧ b ≠ ch 'E') :
    exponent (ch 'e') (ch 'E') r = (0, 0) := by
  unfold exponent
  rw [if_neg]
  rintro (hx | hx)
  · exact (h _ hx).1 rfl
  · exact (h _ hx).2 rfl

/-- An exponent. -/
theorem exponent_some {c : Byte} {es eds r : List Byte} (hc : c = ch 'e' ∨ c = ch 'E') (h2 : es = [] ∨ es = lit "-" ∨ es = lit "+")
    (h3 : Digits eds) (h4 : eds ≠ []) (h5 : ∀ b, r.head? = some b → isdigit b = false) :
    exponent (ch 'e') (ch 'E') (c :: es ++ eds ++ r) =
      (if es = lit "-" then - (whole eds : Int) else whole eds, 1 + es.length + eds.length) := by
  obtain ⟨d, ds', rfl⟩ := List.exists_cons_of_ne_nil h4
  have hd := isdigit_plain d (isdigit_of h3 d (by simp))
  unfold exponent
  rw [if_pos (by rcases hc with rfl | rfl <;> simp)]
  have e0 : (c :: es ++ (d :: ds') ++ r).drop 1 = es ++ ((d :: ds') ++ r) := by simp
  simp only [e0]
  have hm : lit "-" = [ch '-'] := by decide
  have hp : lit "+" = [ch '+'] := by decide
  rw [hm, hp] at h2
  have e2 : (if (es ++ (d :: ds' ++ r)).head? = some (ch '-') ∨
      (es ++ (d :: ds' ++ r)).head? = some (ch '+') then 1 else 0) = es.length := by
    rcases h2 with rfl | rfl | rfl
    · simp [hd.2.1, hd.2.2]
    · simp
    · simp
  have e3 : ((es ++ (d :: ds' ++ r)).head? = some (ch '-')) ↔ es = [ch '-'] := by
    rcases h2 with rfl | rfl | rfl
    · simp [hd.2.1]
    · simp
    · simp [show ch '+' ≠ ch '-' by decide]
  rw [e2, List.drop_left, takeWhile_all (isdigit_of h3) h5, if_neg h4, hm]
  simp only [e3]
  rfl

theorem low_x : ∀ b : Byte, low b = ch 'x' → b = ch 'x' ∨ b = ch 'X' := by decide +kernel

/-- What is no hexadecimal number. -/
theorem not_hex {r : List Byte} (h : ∀ b, r[1]? = some b → b ≠ ch 'x' ∧ b ≠ ch 'X') : ¬ (r.take 2).map low = lit "0x" := by
  intro hx
  have e : lit "0x" = [ch '0', ch 'x'] := by decide
  rw [e] at hx
  match r, hx with
  | [], hx => cases hx
  | [_], hx => simp at hx
  | a :: b :: r, hx =>
    simp at hx
    have := h b rfl
    rcases low_x b hx.2 with hb | hb
    · exact this.1 hb
    · exact this.2 hb

/-- `strtof` on white space, a sign, digits, and what else belongs to a number. -/
theorem strtof_eq {ws sg r : List Byte} {d : Byte} {m : Rat} {k l : Nat} {e : Int} (h1 : ∀ b ∈ ws, isspace b = true)
    (h2 : sg = [] ∨ sg = lit "-" ∨ sg = lit "+") (h3 : r.head? = some d) (h3' : isdigit d = true)
    (hx : ∀ b, r[1]? = some b → b ≠ ch 'x' ∧ b ≠ ch 'X')
    (hm : mantissa 10 isdigit (fun b => b.toNat - 48) r = some (m, k))
    (he : exponent (ch 'e') (ch 'E') (r.drop k) = (e, l)) :
    strtof (ws ++ (sg ++ r)) = (rnd f32 ((if sg = lit "-" then -1 else 1) * (m * 10 ^ e)), ws.length + sg.length + k + l) := by
  obtain ⟨r', rfl⟩ : ∃ r', r = d :: r' := by
    cases r with
    | nil => cases h3
    | cons a r' => cases h3; exact ⟨r', rfl⟩
  have hd := isdigit_plain d h3'
  have hmi : lit "-" = [ch '-'] := by decide
  have hpl : lit "+" = [ch '+'] := by decide
  rw [hmi, hpl] at h2
  have e1 : (ws ++ (sg ++ (d :: r'))).takeWhile isspace = ws := by
    refine takeWhile_all h1 ?_
    intro x hx
    rcases h2 with rfl | rfl | rfl
    · simp at hx; subst hx; exact hd.1
    · simp at hx; subst hx; decide
    · simp at hx; subst hx; decide
  have e2 : (if (sg ++ (d :: r')).head? = some (ch '-') ∨
      (sg ++ (d :: r')).head? = some (ch '+') then 1 else 0) = sg.length := by
    rcases h2 with rfl | rfl | rfl
    · simp [hd.2.1, hd.2.2]
    · simp
    · simp
  have e3 : ((sg ++ (d :: r')).head? = some (ch '-')) ↔ sg = [ch '-'] := by
    rcases h2 with rfl | rfl | rfl
    · simp [hd.2.1]
    · simp
    · simp [show ch '+' ≠ ch '-' by decide]
  unfold strtof
  simp only [e1, List.drop_left, e2]
  rw [if_neg (not_hex hx)]
  simp only [hm, he, e3]
  rw [hmi]
  congr 2
  split <;> ring

/-- `parse_f32` in terms of `strtof`. -/
theorem parse_f32_eq {v : View} (hv : v.Valid) :
    parse_f32 v = (if (strtof (v.bytes ++ [0#8])).2 = 0 then .ok none
      else (v.sub (strtof (v.bytes ++ [0#8])).2 v.len).map
        (fun rest => some ((strtof (v.bytes ++ [0#8])).1, rest))) := by
  unfold parse_f32
  rw [terminate_eq hv]
  simp only [ok_bind]
  rw [mapM_some _ (fun _ => rfl)]
  simp only [ok_bind]
  split
  · rfl
  · cases v.sub (strtof (v.bytes ++ [0#8])).2 v.len <;> rfl

/-- `parse_f32` where `strtof` takes a part of the text. -/
theorem parse_f32_of {v : View} (hv : v.Valid) {a rest : List Byte} {x : F} (e : v.bytes = a ++ rest) (ha : a ≠ [])
    (h : strtof (v.bytes ++ [0#8]) = (x, a.length)) :
    ∃ r, parse_f32 v = .ok (some (x, r)) ∧ r.Valid ∧ r.bytes = rest := by
  have lv := View.bytes_length hv
  have hl : a.length + rest.length = v.len := by
    rw [← lv, e, List.length_append]
  have hp := List.length_pos_iff.mpr ha
  rw [parse_f32_eq hv, h]
  simp only
  rw [if_neg (by omega), sub_eq (by omega) (Nat.le_refl _)]
  refine ⟨_, rfl, View.sub_valid hv (by omega), ?_⟩
  rw [View.sub_bytes _ _ _ (by omega), e, List.drop_left' rfl, List.take_of_length_le (by omega)]

/-! ### What is printed -/

theorem pad_length : ∀ f n, (pad f n).length = f
  | 0, _ => rfl
  | f + 1, n => by
    unfold pad
    rw [List.length_append, pad_length f]
    rfl

theorem pad_digits : ∀ f n, Digits (pad f n)
  | 0, _ => by intro b hb; cases hb
  | f + 1, n => by
    intro b hb
    unfold pad at hb
    rcases List.mem_append.mp hb with hb | hb
    · exact pad_digits f _ b hb
    · simp only [List.mem_singleton] at hb
      subst hb
      exact (isdigit_iff _).mp (isdigit_digit (n % 10) (Nat.mod_lt _ (by decide))).1

theorem pad_value : ∀ f n, whole (pad f n) = n % 10 ^ f
  | 0, n => by simp [pad, whole, Nat.mod_one]
  | f + 1, n => by
    unfold pad
    rw [whole_append, pad_value f]
    have h10 : n % 10 < 10 := Nat.mod_lt _ (by decide)
    have h1 : whole [BitVec.ofNat 8 (48 + n % 10)] = n % 10 := by
      show 10 * 0 + ((BitVec.ofNat 8 (48 + n % 10)).toNat - 48) = n % 10
      rw [BitVec.toNat_ofNat, Nat.mod_eq_of_lt (by omega)]
      omega
    rw [h1, List.length_singleton, pow_one, Nat.pow_succ', Nat.mod_mul]
    omega

theorem digits_Digits (f n : Nat) : Digits (digits f n) := fun b hb => (isdigit_iff b).mp (digits_isdigit f n b hb)

/-- The number printed. -/
theorem printed_value {n : Nat} (hn : n / 10 ^ 6 < 10 ^ 310) : number (digits 310 (n / 10 ^ 6)) (pad 6 n) = (n : Rat) / 10 ^ 6 := by
  unfold number
  rw [pad_value, pad_length]
  have : whole (digits 310 (n / 10 ^ 6)) = n / 10 ^ 6 := digits_value 310 _ hn (by decide)
  rw [this]
  have h := Nat.div_add_mod n (10 ^ 6)
  have h' : (n : Rat) = 10 ^ 6 * ((n / 10 ^ 6 : Nat) : Rat) + ((n % 10 ^ 6 : Nat) : Rat) := by exact_mod_cast h.symm
  rw [h']
  field_simp

/-! ### Rounding -/

theorem nearest_best (m : Rat) (j : Int) : |(Angle.nearest m : Rat) - m| ≤ |(j : Rat) - m| := by
  by_cases hj : j = Angle.nearest m
  · rw [hj]
  · have h := Angle.nearest_err m
    have h1 : (1 : Rat) ≤ |(j : Rat) - Angle.nearest m| := by
      have : (1 : Int) ≤ |j - Angle.nearest m| := Int.one_le_abs (sub_ne_zero.mpr hj)
      exact_mod_cast this
    have h2 := abs_sub_abs_le_abs_sub ((j : Rat) - Angle.nearest m) (m - Angle.nearest m)
    have e : (j : Rat) - Angle.nearest m - (m - Angle.nearest m) = j - m := by ring
    rw [e, abs_sub_comm m] at h2
    linarith

theorem nearest_near {m : Rat} {j : Int} (h : |m - j| < 1 / 2) : Angle.nearest m = j := by
  have h1 := Angle.nearest_err m
  have h2 : |((Angle.nearest m - j : Int) : Rat)| < 1 := by
    push_cast
    calc |(Angle.nearest m : Rat) - j| = |((Angle.nearest m : Rat) - m) + (m - j)| := by ring_nf
      _ ≤ |(Angle.nearest m : Rat) - m| + |m - j| := abs_add_le _ _
      _ < 1 := by linarith
  have h3 : |Angle.nearest m - j| < 1 := by exact_mod_cast h2
  have := Int.abs_lt_one_iff.mp h3
  omega

/-- Numbers of the format from `2 ^ k` on are multiples of a fixed one. -/
theorem float_grid {p : Nat} {z : Rat} (h : IsFloat p z) {k : Int} (hk : 2 ^ k ≤ |z|) : ∃ j : Int, z = j * 2 ^ (k - ((p : Int) - 1)) := by
  obtain ⟨m, e, hm, rfl⟩ := h
  have he : k - ((p : Int) - 1) ≤ e := by
    by_contra hc
    have h1 : |(m : Rat) * 2 ^ e| < 2 ^ k := by
      rw [abs_mul, abs_of_pos (by positivity : (0 : Rat) < 2 ^ e)]
      have : |(m : Rat)| < 2 ^ (p : Int) := by rw [zpow_natCast]; exact_mod_cast hm
      calc |(m : Rat)| * 2 ^ e < 2 ^ (p : Int) * 2 ^ e := by gcongr
        _ = 2 ^ ((p : Int) + e) := by rw [zpow_add₀ (by norm_num)]
        _ ≤ 2 ^ k := zpow_le_zpow_right₀ (by norm_num) (by omega)
    linarith
  refine ⟨m * 2 ^ (e - (k - ((p : Int) - 1))).toNat, ?_⟩
  push_cast
  rw [mul_assoc, ← zpow_natCast, ← zpow_add₀ (by norm_num)]
  congr 2
  omega

/-- Rounding goes to a nearest number of the format. -/
theorem round_best {p : Nat} (hp : 1 ≤ p) (d : Rat) {x : Rat} (hx : IsFloat p x) : |Angle.round p d - d| ≤ |x - d| := by
  wlog hd : 0 < d generalizing d x with H
  · rcases lt_or_eq_of_le (not_lt.mp hd) with h | h
    · have := H (-d) (Lerp.isFloat_neg hx) (by linarith)
      rw [Angle.round_neg] at this
      rw [show -Angle.round p d - -d = -(Angle.round p d - d) by ring, show -x - -d = -(x - d) by ring, abs_neg, abs_neg] at this
      exact this
    · rw [h, Angle.round_zero]
      simp
  have hpos : (0 : Rat) < 2 ^ (Int.log 2 d - ((p : Int) - 1)) := by positivity
  have hl := Int.zpow_log_le_self (b := 2) (by norm_num) hd
  push_cast at hl
  have hr : Angle.round p d = Angle.nearest (d / 2 ^ (Int.log 2 d - ((p : Int) - 1))) * 2 ^ (Int.log 2 d - ((p : Int) - 1)) := by
    unfold Angle.round
    rw [if_neg hd.ne', abs_of_pos hd]
  have key : ∀ j : Int, |Angle.round p d - d| ≤ |(j : Rat) * 2 ^ (Int.log 2 d - ((p : Int) - 1)) - d| := by
    intro j
    rw [hr]
    have e : ∀ y : Rat, y * 2 ^ (Int.log 2 d - ((p : Int) - 1)) - d =
        (y - d / 2 ^ (Int.log 2 d - ((p : Int) - 1))) * 2 ^ (Int.log 2 d - ((p : Int) - 1)) := by
      intro y
      rw [sub_mul, div_mul_cancel₀ _ hpos.ne']
    rw [e, e, abs_mul, abs_mul]
    exact mul_le_mul_of_nonneg_right (nearest_best _ j) (abs_nonneg _)
  rcases le_or_gt (2 ^ Int.log 2 d) x with h | h
  · obtain ⟨j, hj⟩ := float_grid hx (h.trans (le_abs_self x))
    rw [hj]
    exact key j
  · refine (key (2 ^ (p - 1))).trans ?_
    have e : ((2 ^ (p - 1) : Int) : Rat) * 2 ^ (Int.log 2 d - ((p : Int) - 1)) = 2 ^ Int.log 2 d := by
      push_cast
      rw [← zpow_natCast, ← zpow_add₀ (by norm_num)]
      congr 1
      omega
    rw [e, abs_of_nonpos (by linarith), abs_of_nonpos (by linarith)]
    linarith

theorem isFloat_of {x : Rat} (h : IsF32 x) : IsFloat 24 x := by
  obtain ⟨⟨m, e, hm, _, hx⟩, _⟩ := h
  exact ⟨m, e, hm, hx⟩

/-- Rounding within the range. -/
theorem rnd_of_round {d : Rat} (h1 : d = 0 ∨ 1 / 10 ^ 6 ≤ |d|) (h2 : |Angle.round 24 d| < 2 ^ 128) : rnd f32 d = .fin (Angle.round 24 d) := by
  have hM : (2 : Rat) ^ (128 : Int) = 2 ^ 128 := by norm_cast
  rcases h1 with rfl | h1
  · rw [Angle.round_zero]
    decide +kernel
  · unfold rnd
    have : ¬ |d| < 2 ^ f32.emin := by
      have : (2 : Rat) ^ f32.emin ≤ 1 / 10 ^ 6 := by
        show (2 : Rat) ^ (-126 : Int) ≤ 1 / 10 ^ 6
        norm_num
      linarith
    have h3 : ¬ (2 : Rat) ^ f32.emax ≤ |Angle.round f32.p d| := by
      show ¬ (2 : Rat) ^ (128 : Int) ≤ |Angle.round 24 d|
      rw [hM]
      linarith
    simp only [if_neg this, if_neg h3]
    rfl

/-- The number printed for `x`. -/
def shown (x : Rat) : Rat := (Angle.nearest (x * 10 ^ 6) : Rat) / 10 ^ 6

theorem shown_err (x : Rat) : |shown x - x| ≤ 1 / 2 / 10 ^ 6 := by
  have h := Angle.nearest_err (x * 10 ^ 6)
  have e : shown x - x = ((Angle.nearest (x * 10 ^ 6) : Rat) - x * 10 ^ 6) / 10 ^ 6 := by
    unfold shown
    field_simp
  rw [e, abs_div, abs_of_pos (by norm_num : (0 : Rat) < 10 ^ 6)]
  gcongr

theorem shown_neg (x : Rat) : shown (-x) = - shown x := by
  unfold shown
  rw [neg_mul, Angle.nearest_neg]
  push_cast
  ring

theorem shown_cases (x : Rat) : shown x = 0 ∨ 1 / 10 ^ 6 ≤ |shown x| := by
  unfold shown
  by_cases h : Angle.nearest (x * 10 ^ 6) = 0
  · left
    rw [h]
    simp
  · right
    rw [abs_div, abs_of_pos (by norm_num : (0 : Rat) < 10 ^ 6)]
    gcongr
    have := Int.one_le_abs h
    exact_mod_cast this

/-- From 16 on the number printed is read back. -/
theorem exact_pos {x : Rat} (hx : IsFloat 24 x) (h : 16 ≤ x) : Angle.round 24 (shown x) = x := by
  have hd : 16 ≤ shown x := by
    unfold shown
    rw [le_div_iff₀ (by norm_num)]
    have : Angle.nearest (((16 * 10 ^ 6 : Int)) : Rat) ≤ Angle.nearest (x * 10 ^ 6) := by
      apply Angle.nearest_mono
      push_cast
      linarith
    rw [Angle.nearest_int] at this
    exact_mod_cast this
  have h16 : Angle.round 24 16 = 16 := Angle.round_float ⟨1, 4, by norm_num, by norm_num⟩
  have hy : 16 ≤ Angle.round 24 (shown x) := by
    have := Angle.round_mono (p := 24) (by norm_num) hd
    rwa [h16] at this
  have hbest := round_best (p := 24) (by norm_num) (shown x) hx
  have herr := shown_err x
  have hxy : |Angle.round 24 (shown x) - x| ≤ 1 / 10 ^ 6 := by
    have : |Angle.round 24 (shown x) - x| ≤ |Angle.round 24 (shown x) - shown x| + |shown x - x| := by
      have := abs_add_le (Angle.round 24 (shown x) - shown x) (shown x - x)
      rwa [show Angle.round 24 (shown x) - shown x + (shown x - x) = Angle.round 24 (shown x) - x by ring] at this
    rw [abs_sub_comm x] at hbest
    linarith
  have hp4 : (2 : Rat) ^ (4 : Int) = 16 := by norm_num
  obtain ⟨i, hi⟩ := float_grid (k := 4) (Lerp.round_isFloat (p := 24) (by norm_num) (shown x)) (by rw [hp4]; exact hy.trans (le_abs_self _))
  obtain ⟨j, hj⟩ := float_grid (k := 4) hx (by rw [hp4]; exact h.trans (le_abs_self _))
  have hu : (2 : Rat) ^ ((4 : Int) - (((24 : Nat) : Int) - 1)) = 1 / 524288 := by norm_num
  rw [hu] at hi hj
  rw [hi, hj] at hxy
  have hij : |((i - j : Int) : Rat)| < 1 := by
    have e : ((i : Rat) * (1 / 524288) - j * (1 / 524288)) = ((i - j : Int) : Rat) / 524288 := by
      push_cast
      ring
    rw [e, abs_div, abs_of_pos (by norm_num : (0 : Rat) < 524288), div_le_iff₀ (by norm_num)] at hxy
    calc _ ≤ 1 / 10 ^ 6 * (524288 : Rat) := hxy
      _ < 1 := by norm_num
  have hij' : |i - j| < 1 := by exact_mod_cast hij
  have := Int.abs_lt_one_iff.mp hij'
  rw [hi, hj, show i = j by omega]

/-- What is read back. -/
theorem read_back {x : Rat} (hx : IsF32 x) :
    ∃ y, rnd f32 (shown x) = .fin y ∧ |y - x| ≤ 1 / 10 ^ 6 ∧ (16 ≤ |x| → y = x) ∧
      ((∃ j : Int, x * 2 ^ 6 = j) → y = x) ∧ (|x| ≤ 1 / 2 / 10 ^ 6 → y = 0) := by
  have hf := isFloat_of hx
  have hbest := round_best (p := 24) (by norm_num) (shown x) hf
  have herr := shown_err x
  have hbig : 16 ≤ |x| → Angle.round 24 (shown x) = x := by
    intro h
    rcases le_total 0 x with h0 | h0
    · rw [abs_of_nonneg h0] at h
      exact exact_pos hf h
    · rw [abs_of_nonpos h0] at h
      have := exact_pos (Lerp.isFloat_neg hf) h
      rw [shown_neg, Angle.round_neg] at this
      linarith
  have hlt : |Angle.round 24 (shown x)| < 2 ^ 128 := by
    rcases le_or_gt 16 |x| with h | h
    · rw [hbig h]
      exact hx.2
    · have h1 : |shown x| ≤ 2 ^ (5 : Int) := by
        have := abs_add_le (shown x - x) x
        rw [show shown x - x + x = shown x by ring] at this
        norm_num
        linarith
      rw [abs_round]
      have := round_le_pow (p := 24) (by norm_num) h1
      refine this.trans_lt ?_
      norm_num
  refine ⟨_, rnd_of_round (shown_cases x) hlt, ?_, hbig, ?_, ?_⟩
  · have : |Angle.round 24 (shown x) - x| ≤ |Angle.round 24 (shown x) - shown x| + |shown x - x| := by
      have := abs_add_le (Angle.round 24 (shown x) - shown x) (shown x - x)
      rwa [show Angle.round 24 (shown x) - shown x + (shown x - x) = Angle.round 24 (shown x) - x by ring] at this
    rw [abs_sub_comm x] at hbest
    linarith
  · rintro ⟨j, hj⟩
    have : shown x = x := by
      unfold shown
      have e : x * 10 ^ 6 = ((j * 15625 : Int) : Rat) := by
        push_cast
        rw [← hj]
        ring
      rw [e, Angle.nearest_int, ← e]
      field_simp
    rw [this, Angle.round_float hf]
  · intro h
    have : shown x = 0 := by
      unfold shown
      rw [nearest_small]
      · simp
      · rw [abs_mul, abs_of_pos (by norm_num : (0 : Rat) < 10 ^ 6)]
        linarith
    rw [this, Angle.round_zero]

/-- Reading what is printed. -/
theorem strtof_print {x : Rat} (hx : |x| < 2 ^ 1024) {rest : List Byte}
    (hr : ∀ b, rest.head? = some b → ¬ (48#8 ≤ b ∧ b ≤ 57#8) ∧ b ≠ ch 'e' ∧ b ≠ ch 'E') :
    strtof (printF x ++ (rest ++ [0#8])) = (rnd f32 (shown x), (printF x).length) := by
  set n := (Angle.nearest (|x| * 10 ^ 6)).toNat with hn
  have hnn : 0 ≤ Angle.nearest (|x| * 10 ^ 6) := by
    have := Angle.nearest_mono (show ((0 : Int) : Rat) ≤ |x| * 10 ^ 6 by push_cast; positivity)
    rwa [Angle.nearest_int] at this
  have hni : ((n : Nat) : Int) = Angle.nearest (|x| * 10 ^ 6) := Int.toNat_of_nonneg hnn
  have hbound : n / 10 ^ 6 < 10 ^ 310 := by
    have h1 : Angle.nearest (|x| * 10 ^ 6) ≤ 2 ^ 1024 * 10 ^ 6 := by
      have : Angle.nearest (|x| * 10 ^ 6) ≤ Angle.nearest (((2 ^ 1024 * 10 ^ 6 : Int)) : Rat) := by
        apply Angle.nearest_mono
        push_cast
        have := hx.le
        gcongr
        norm_num
      rwa [Angle.nearest_int] at this
    have h2 : n ≤ 2 ^ 1024 * 10 ^ 6 := by
      have : (n : Int) ≤ ((2 ^ 1024 * 10 ^ 6 : Nat) : Int) := by
        rw [hni]
        push_cast
        exact h1
      exact_mod_cast this
    have h3 : n / 10 ^ 6 ≤ 2 ^ 1024 := by
      have := Nat.div_le_div_right (c := 10 ^ 6) h2
      rwa [Nat.mul_div_cancel _ (by decide)] at this
    exact h3.trans_lt (by decide +kernel)
  have hr' : ∀ b, (rest ++ [0#8]).head? = some b → isdigit b = false ∧ b ≠ ch 'e' ∧ b ≠ ch 'E' := by
    intro b hb
    cases rest with
    | nil => simp at hb; subst hb; decide
    | cons c r =>
      have := hr b (by simpa using hb)
      refine ⟨?_, this.2⟩
      have h := this.1
      rw [← isdigit_iff] at h
      simpa using h
  have hne := digits_ne_nil 310 (n / 10 ^ 6) (by decide)
  obtain ⟨d, ds', hds⟩ := List.exists_cons_of_ne_nil hne
  have hD := digits_Digits 310 (n / 10 ^ 6)
  have hd : isdigit d = true := isdigit_of hD d (by rw [hds]; simp)
  have hm := mantissa_point (r := rest ++ [0#8]) hD hne (pad_digits 6 n) (fun b hb => (hr' b hb).1)
  rw [printed_value hbound, pad_length] at hm
  have hlen : (digits 310 (n / 10 ^ 6) ++ (ch '.' :: pad 6 n)).length = (digits 310 (n / 10 ^ 6)).length + (1 + 6) := by
    rw [List.length_append, List.length_cons, pad_length]
  have he : exponent (ch 'e') (ch 'E')
      ((digits 310 (n / 10 ^ 6) ++ (ch '.' :: pad 6 n ++ (rest ++ [0#8]))).drop ((digits 310 (n / 10 ^ 6)).length + (1 + 6))) = (0, 0) := by
    rw [← List.append_assoc, List.drop_left' hlen]
    exact exponent_none (fun b hb => (hr' b hb).2)
  have hs := strtof_eq (ws := []) (sg := if x < 0 then lit "-" else []) (d := d)
    (r := digits 310 (n / 10 ^ 6) ++ (ch '.' :: pad 6 n ++ (rest ++ [0#8])))
    (by intro b hb; cases hb) (by split <;> simp) (by rw [hds]; rfl) hd (by
      intro b hb
      rw [hds] at hb
      cases ds' with
      | nil => cases hb; decide
      | cons c cs =>
        have hb : some c = some b := hb
        rw [← Option.some.inj hb]
        have : isdigit c = true := isdigit_of hD c (by rw [hds]; simp)
        have h2 : ∀ c : Byte, isdigit c = true → c ≠ ch 'x' ∧ c ≠ ch 'X' := by decide +kernel
        exact h2 c this) hm he
  have hmi : lit "-" = [ch '-'] := by decide
  have etext : printF x ++ (rest ++ [0#8]) = [] ++ ((if x < 0 then lit "-" else []) ++
      (digits 310 (n / 10 ^ 6) ++ (ch '.' :: pad 6 n ++ (rest ++ [0#8])))) := by
    unfold printF
    rw [← hn, hmi]
    simp
  rw [etext, hs]
  have evalue : (if (if x < 0 then lit "-" else []) = lit "-" then (-1 : Rat) else 1) * ((n : Rat) / 10 ^ 6 * 10 ^ (0 : Int)) = shown x := by
    have hnr : (n : Rat) = ((Angle.nearest (|x| * 10 ^ 6) : Int) : Rat) := by exact_mod_cast hni
    rw [hnr, zpow_zero, mul_one]
    by_cases h0 : x < 0
    · rw [if_pos h0, if_pos rfl, abs_of_neg h0]
      have := shown_neg x
      unfold shown at this ⊢
      rw [this]
      ring
    · rw [if_neg h0, if_neg (by decide), abs_of_nonneg (not_lt.mp h0), one_mul]
      rfl
  rw [evalue]
  congr 1
  unfold printF
  rw [← hn, List.length_append, hlen, hmi]
  simp

theorem isspace_iff (b : Byte) : isspace b = true ↔ b = 32#8 ∨ (9#8 ≤ b ∧ b ≤ 13#8) := by
  revert b
  decide +kernel

theorem head_end {rest : List Byte} {P : Byte → Prop} (h : ∀ b, rest.head? = some b → P b) (h0 : P 0#8) :
    ∀ b, (rest ++ [0#8]).head? = some b → P b := by
  intro b hb
  cases rest with
  | nil => simp at hb; subst hb; exact h0
  | cons c r => exact h b (by simpa using hb)

theorem isdigit_false {b : Byte} (h : ¬ (48#8 ≤ b ∧ b ≤ 57#8)) : isdigit b = false := by
  rw [← isdigit_iff] at h
  simpa using h

/-- `parse_f32` on a number. -/
theorem number_read {v : View} (hv : v.Valid) {ws sg ds fr fs ex es eds rest : List Byte} {e : Int}
    (hb : v.bytes = ws ++ (sg ++ (ds ++ (fr ++ (ex ++ rest))))) (hws : ∀ b ∈ ws, isspace b = true)
    (hsg : sg = [] ∨ sg = lit "-" ∨ sg = lit "+") (hds : Digits ds) (hne : ds ≠ [])
    (hfr : (fr = [] ∧ fs = []) ∨ (fr = ch '.' :: fs ∧ Digits fs))
    (hex : (ex = [] ∧ e = 0) ∨ (∃ c, (c = ch 'e' ∨ c = ch 'E') ∧ ex = c :: es ++ eds ∧ (es = [] ∨ es = lit "-" ∨ es = lit "+") ∧
      Digits eds ∧ eds ≠ [] ∧ e = if es = lit "-" then - (whole eds : Int) else whole eds))
    (hr : ∀ b, rest.head? = some b → ¬ (48#8 ≤ b ∧ b ≤ 57#8) ∧ (ex = [] → b ≠ ch 'e' ∧ b ≠ ch 'E' ∧
      (fr = [] → b ≠ ch '.' ∧ b ≠ ch 'x' ∧ b ≠ ch 'X'))) :
    ∃ r, parse_f32 v = .ok (some (rnd f32 ((if sg = lit "-" then -1 else 1) * (number ds fs * 10 ^ e)), r)) ∧ r.Valid ∧ r.bytes = rest := by
  have hr' := head_end hr ⟨by decide, fun _ => ⟨by decide, by decide, fun _ => by decide⟩⟩
  -- what comes after the digits before and behind the point
  have hE : ∀ b, (ex ++ (rest ++ [0#8])).head? = some b → isdigit b = false ∧ (fr = [] → b ≠ ch '.' ∧ b ≠ ch 'x' ∧ b ≠ ch 'X') := by
    intro b hb
    rcases hex with ⟨rfl, _⟩ | ⟨c, hc, rfl, _⟩
    · have := hr' b (by simpa using hb)
      exact ⟨isdigit_false this.1, (this.2 rfl).2.2⟩
    · have : c = b := by simpa using hb
      subst this
      rcases hc with rfl | rfl <;> exact ⟨by decide, fun _ => by decide⟩
  have hm : mantissa 10 isdigit (fun b => b.toNat - 48) (ds ++ (fr ++ (ex ++ (rest ++ [0#8])))) = some (number ds fs, ds.length + fr.length) := by
    rcases hfr with ⟨rfl, rfl⟩ | ⟨rfl, hfs⟩
    · exact mantissa_whole hds hne (fun b hb => ⟨(hE b hb).1, ((hE b hb).2 rfl).1⟩)
    · have := mantissa_point hds hne hfs (fun b hb => (hE b hb).1)
      rw [List.length_cons, Nat.add_comm fs.length 1]
      exact this
  have hex' : exponent (ch 'e') (ch 'E') ((ds ++ (fr ++ (ex ++ (rest ++ [0#8])))).drop (ds.length + fr.length)) = (e, ex.length) := by
    rw [← List.append_assoc, List.drop_left' (by simp)]
    rcases hex with ⟨rfl, rfl⟩ | ⟨c, hc, rfl, h1, h2, h3, rfl⟩
    · exact exponent_none (fun b hb => ⟨((hr' b hb).2 rfl).1, ((hr' b hb).2 rfl).2.1⟩)
    · rw [exponent_some hc h1 h2 h3 (fun b hb => isdigit_false (hr' b hb).1)]
      congr 1
      simp
      omega
  obtain ⟨d, ds', rfl⟩ := List.exists_cons_of_ne_nil hne
  have hd := isdigit_of hds d (by simp)
  have hx : ∀ b, ((d :: ds') ++ (fr ++ (ex ++ (rest ++ [0#8]))))[1]? = some b → b ≠ ch 'x' ∧ b ≠ ch 'X' := by
    intro b hb
    have h2 : ∀ c : Byte, isdigit c = true → c ≠ ch 'x' ∧ c ≠ ch 'X' := by decide +kernel
    cases ds' with
    | cons c cs =>
      have hb : some c = some b := hb
      rw [← Option.some.inj hb]
      exact h2 c (isdigit_of hds c (by simp))
    | nil =>
      have hb : (fr ++ (ex ++ (rest ++ [0#8])))[0]? = some b := hb
      rcases hfr with ⟨rfl, _⟩ | ⟨rfl, _⟩
      · exact ((hE b (by rw [List.head?_eq_getElem?]; exact hb)).2 rfl).2
      · have hb : some (ch '.') = some b := hb
        rw [← Option.some.inj hb]
        decide
  have hs := strtof_eq hws hsg (r := (d :: ds') ++ (fr ++ (ex ++ (rest ++ [0#8])))) rfl hd hx hm hex'
  refine parse_f32_of hv (a := ws ++ (sg ++ ((d :: ds') ++ (fr ++ ex)))) (by rw [hb]; simp) (by simp) ?_
  rw [hb]
  have et : ws ++ (sg ++ ((d :: ds') ++ (fr ++ (ex ++ rest)))) ++ [0#8] = ws ++ (sg ++ ((d :: ds') ++ (fr ++ (ex ++ (rest ++ [0#8]))))) := by simp
  rw [et, hs]
  congr 1
  simp only [List.length_append]
  omega

theorem rnd_best {q : Rat} (h : q = 0 ∨ (2 : Rat) ^ (-126 : Int) ≤ |q|) (h2 : |q| ≤ 2 ^ 127) :
    ∃ y, rnd f32 q = .fin y ∧ ∀ z, IsFloat 24 z → |q - y| ≤ |q - z| := by
  refine ⟨_, rnd_fin (f := f32) (k := 127) (by decide) (by decide) h (by exact_mod_cast h2), fun z hz => ?_⟩
  rw [abs_sub_comm q, abs_sub_comm q]
  exact round_best (p := 24) (by decide) q hz

theorem print_read_shown {x : Rat} (hx : IsF32 x) {v : View} (hv : v.Valid) {rest : List Byte} (hb : v.bytes = print (.fin x) ++ rest)
    (hr : ∀ b, rest.head? = some b → ¬ (48#8 ≤ b ∧ b ≤ 57#8) ∧ b ≠ ch 'e' ∧ b ≠ ch 'E') :
    ∃ r, parse_f32 v = .ok (some (rnd f32 (shown x), r)) ∧ r.Valid ∧ r.bytes = rest := by
  refine parse_f32_of hv (a := printF x) hb (by unfold printF; simp) ?_
  rw [hb, List.append_assoc]
  exact strtof_print (hx.2.trans_le (pow_le_pow_right₀ (by norm_num) (by norm_num))) hr

theorem print_read {x : Rat} (hx : IsF32 x) {v : View} (hv : v.Valid) {rest : List Byte} (hb : v.bytes = print (.fin x) ++ rest)
    (hr : ∀ b, rest.head? = some b → ¬ (48#8 ≤ b ∧ b ≤ 57#8) ∧ b ≠ ch 'e' ∧ b ≠ ch 'E') :
    ∃ y r, parse_f32 v = .ok (some (.fin y, r)) ∧ r.Valid ∧ r.bytes = rest ∧ |y - x| ≤ 1 / 10 ^ 6 ∧ (16 ≤ |x| → y = x) ∧
      ((∃ j : Int, x * 2 ^ 6 = j) → y = x) ∧ (|x| ≤ 1 / 2 / 10 ^ 6 → y = 0) := by
  obtain ⟨r, h1, h2, h3⟩ := print_read_shown hx hv hb hr
  obtain ⟨y, h4, h5⟩ := read_back hx
  rw [h4] at h1
  exact ⟨y, r, h1, h2, h3, h5⟩

/-- Infinities and no numbers. -/
theorem special_read {x : F} (hx : x = .inf true ∨ x = .inf false ∨ x = .nan) {v : View} (hv : v.Valid) {rest : List Byte}
    (hb : v.bytes = print x ++ rest) (hr : ∀ b, rest.head? = some b → b ≠ ch 'i' ∧ b ≠ ch 'I' ∧ b ≠ ch '(') :
    ∃ r, parse_f32 v = .ok (some (x, r)) ∧ r.Valid ∧ r.bytes = rest := by
  have hr' := head_end hr (by decide)
  refine parse_f32_of hv hb (by rcases hx with rfl | rfl | rfl <;> decide) ?_
  rw [hb, List.append_assoc]
  have hlow : ∀ b : Byte, b ≠ ch 'i' → b ≠ ch 'I' → low b ≠ ch 'i' := by decide +kernel
  generalize rest ++ [0#8] = t at hr'
  match t with
  | [] => rcases hx with rfl | rfl | rfl <;> decide +kernel
  | c :: t =>
    have hc := hr' c rfl
    have hl := hlow c hc.1 hc.2.1
    have e1 : lit "inf" = [ch 'i', ch 'n', ch 'f'] := by decide
    have e2 : lit "-inf" = [ch '-', ch 'i', ch 'n', ch 'f'] := by decide
    have e3 : lit "nan" = [ch 'n', ch 'a', ch 'n'] := by decide
    have e4 : lit "infinity" = [ch 'i', ch 'n', ch 'f', ch 'i', ch 'n', ch 'i', ch 't', ch 'y'] := by decide
    have e5 : lit "0x" = [ch '0', ch 'x'] := by decide
    have s1 : isspace (ch 'i') = false := by decide
    have s2 : isspace (ch '-') = false := by decide
    have s3 : isspace (ch 'n') = false := by decide
    have l1 : low (ch 'i') = ch 'i' := by decide
    have l2 : low (ch 'n') = ch 'n' := by decide
    have l3 : low (ch 'f') = ch 'f' := by decide
    have l4 : low (ch 'a') = ch 'a' := by decide
    have n1 : isdigit (ch 'i') = false := by decide
    have n2 : isdigit (ch 'n') = false := by decide
    have d1 : ch 'i' ≠ ch '-' ∧ ch 'i' ≠ ch '+' ∧ ch 'n' ≠ ch '-' ∧ ch 'n' ≠ ch '+' ∧ ch 'i' ≠ ch '.' ∧ ch 'n' ≠ ch '.' ∧ ch 'i' ≠ ch '0' ∧
      ch 'n' ≠ ch '0' ∧ ch 'n' ≠ ch 'i' := by decide
    rcases hx with rfl | rfl | rfl
    · simp [print, strtof, mantissa, e1, e2, e3, e4, e5, s1, s2, s3, l1, l2, l3, l4, n1, n2, d1, hl]
    · simp [print, strtof, mantissa, e1, e2, e3, e4, e5, s1, s2, s3, l1, l2, l3, l4, n1, n2, d1, hl]
    · simp [print, strtof, mantissa, nanTail, e1, e2, e3, e4, e5, s1, s2, s3, l1, l2, l3, l4, n1, n2, d1, hl, hc.2.2]

theorem millionths_nearest (x : Rat) : Millionths x (Angle.nearest (x * 10 ^ 6)) := by
  unfold Millionths
  generalize x * 10 ^ 6 = m
  have h1 := Int.floor_le m
  have h2 := Int.lt_floor_add_one m
  unfold Angle.nearest
  dsimp only
  split_ifs with a b c
  · left
    rw [abs_lt]
    constructor <;> linarith
  · left
    push_cast
    rw [abs_lt]
    constructor <;> linarith
  · right
    have : m - ⌊m⌋ = 1 / 2 := le_antisymm (not_lt.mp b) (not_lt.mp a)
    rw [this]
    exact ⟨by norm_num, c⟩
  · right
    have : m - ⌊m⌋ = 1 / 2 := le_antisymm (not_lt.mp b) (not_lt.mp a)
    push_cast
    rw [show m - (⌊m⌋ + 1) = -(1 / 2) by linarith]
    exact ⟨by norm_num, by omega⟩

/-! ### Any text -/

/-- The first `n` bytes are no end of the text. -/
def NZ (l : List Byte) (n : Nat) : Prop := ∀ b ∈ l.take n, b ≠ 0#8

theorem NZ.zero (l : List Byte) : NZ l 0 := by
  intro b hb
  simp at hb

theorem NZ.add {l : List Byte} {m n : Nat} (h1 : NZ l m) (h2 : NZ (l.drop m) n) : NZ l (m + n) := by
  intro b hb
  rw [List.take_add] at hb
  rcases List.mem_append.mp hb with hb | hb
  · exact h1 b hb
  · exact h2 b hb

theorem NZ.one {l : List Byte} {c : Byte} (h : l.head? = some c) (hc : c ≠ 0#8) : NZ l 1 := by
  cases l with
  | nil => cases h
  | cons a l =>
    cases h
    intro b hb
    simp at hb
    rw [hb]
    exact hc

theorem NZ.takeWhile (l : List Byte) {p : Byte → Bool} (hp : p 0#8 = false) : NZ l (l.takeWhile p).length := by
  induction l with
  | nil => exact NZ.zero _
  | cons a l ih =>
    by_cases ha : p a = true
    · rw [List.takeWhile_cons_of_pos ha, List.length_cons, Nat.add_comm]
      refine NZ.add (NZ.one (c := a) rfl ?_) ih
      rintro rfl
      rw [hp] at ha
      cases ha
    · rw [List.takeWhile_cons_of_neg ha]
      exact NZ.zero _

theorem NZ.word {l w : List Byte} {n : Nat} (h : (l.take n).map low = w) (hw : 0#8 ∉ w) : NZ l n := by
  rintro b hb rfl
  refine hw ?_
  rw [← h]
  exact List.mem_map.mpr ⟨0#8, hb, by decide⟩

theorem mantissa_nz {base : Nat} {isd : Byte → Bool} {val : Byte → Nat} {r : List Byte} {m : Rat} {k : Nat} (hz : isd 0#8 = false)
    (h : mantissa base isd val r = some (m, k)) : NZ r k ∧ 0 < k := by
  unfold mantissa at h
  dsimp only at h
  have h1 := NZ.takeWhile r hz
  by_cases hd : (r.drop (r.takeWhile isd).length).head? = some (ch '.')
  · rw [if_pos hd, if_pos hd] at h
    by_cases hne : r.takeWhile isd ++ ((r.drop (r.takeWhile isd).length).drop 1).takeWhile isd = []
    · rw [if_pos hne] at h
      cases h
    · rw [if_neg hne] at h
      have hk := (Prod.mk.inj (Option.some.inj h)).2
      subst hk
      refine ⟨NZ.add (NZ.add h1 (NZ.one hd (by decide))) ?_, by omega⟩
      rw [← List.drop_drop]
      exact NZ.takeWhile _ hz
  · rw [if_neg hd, if_neg hd] at h
    by_cases hne : r.takeWhile isd ++ [] = []
    · rw [if_pos hne] at h
      cases h
    · rw [if_neg hne] at h
      have hk := (Prod.mk.inj (Option.some.inj h)).2
      subst hk
      refine ⟨h1, ?_⟩
      have : r.takeWhile isd ≠ [] := by simpa using hne
      have := List.length_pos_iff.mpr this
      omega

theorem exponent_nz {c d : Byte} {r : List Byte} {e : Int} {l : Nat} (hc : c ≠ 0#8) (hd : d ≠ 0#8) (h : exponent c d r = (e, l)) : NZ r l := by
  unfold exponent at h
  dsimp only at h
  by_cases h1 : r.head? = some c ∨ r.head? = some d
  · rw [if_pos h1] at h
    generalize hs : (if (r.drop 1).head? = some (ch '-') ∨ (r.drop 1).head? = some (ch '+') then 1 else 0) = sign at h
    by_cases h2 : ((r.drop 1).drop sign).takeWhile isdigit = []
    · rw [if_pos h2] at h
      have := (Prod.mk.inj h).2
      subst this
      exact NZ.zero _
    · rw [if_neg h2] at h
      have := (Prod.mk.inj h).2
      subst this
      refine NZ.add (NZ.add ?_ ?_) ?_
      · rcases h1 with h1 | h1
        · exact NZ.one h1 hc
        · exact NZ.one h1 hd
      · rw [← hs]
        split
        · rename_i h2
          rcases h2 with h2 | h2 <;> exact NZ.one h2 (by decide)
        · exact NZ.zero _
      · rw [← List.drop_drop]
        exact NZ.takeWhile _ (by decide)
  · rw [if_neg h1] at h
    have := (Prod.mk.inj h).2
    subst this
    exact NZ.zero _

theorem nanTail_nz (r : List Byte) : NZ r (nanTail r) := by
  unfold nanTail
  dsimp only
  split
  · rename_i h
    rw [Nat.add_comm _ 2, show 2 = 1 + 1 from rfl, Nat.add_assoc, Nat.add_comm 1 (List.length _)]
    refine NZ.add (NZ.one h.1 (by decide)) (NZ.add (NZ.takeWhile _ (by decide)) ?_)
    rw [List.drop_drop]
    refine NZ.one (c := ch ')') ?_ (by decide)
    rw [List.head?_drop, Nat.add_comm]
    exact h.2
  · exact NZ.zero _

/-- `strtof` does not go beyond the end of the text. -/
theorem strtof_nz (str : List Byte) : NZ str (strtof str).2 := by
  have hw := NZ.takeWhile str (p := isspace) (by decide)
  unfold strtof
  dsimp only
  generalize hr : str.drop (str.takeWhile isspace).length = r at *
  generalize hs : (if r.head? = some (ch '-') ∨ r.head? = some (ch '+') then 1 else 0) = sign
  have h1 : NZ str ((str.takeWhile isspace).length + sign) := by
    refine NZ.add hw ?_
    rw [hr, ← hs]
    split
    · rename_i h2
      rcases h2 with h2 | h2 <;> exact NZ.one h2 (by decide)
    · exact NZ.zero _
  have hd : str.drop ((str.takeWhile isspace).length + sign) = r.drop sign := by rw [← hr, List.drop_drop]
  generalize (str.takeWhile isspace).length + sign = at0 at *
  generalize r.drop sign = q at *
  have step : ∀ {n : Nat}, NZ q n → NZ str (at0 + n) := fun h => NZ.add h1 (by rw [hd]; exact h)
  split
  · rename_i m k hm
    split at hm
    · rename_i h0
      obtain ⟨hk, _⟩ := mantissa_nz (by decide) hm
      have h2 := NZ.add (NZ.word h0 (by decide)) hk
      rw [Nat.add_assoc]
      refine step (NZ.add h2 (exponent_nz (by decide) (by decide) (Prod.eta _)))
    · cases hm
  · split
    · rename_i m k hm
      obtain ⟨hk, _⟩ := mantissa_nz (by decide) hm
      rw [Nat.add_assoc]
      exact step (NZ.add hk (exponent_nz (by decide) (by decide) (Prod.eta _)))
    · split
      · rename_i h
        exact step (NZ.word h (by decide))
      · split
        · rename_i h
          exact step (NZ.word h (by decide))
        · split
          · rename_i h
            rw [Nat.add_assoc]
            exact step (NZ.add (NZ.word h (by decide)) (nanTail_nz _))
          · exact NZ.zero _

/-- `parse_f32` on any text. -/
theorem parse_f32_any {v : View} (hv : v.Valid) :
    parse_f32 v = .ok none ∨ ∃ x r a, parse_f32 v = .ok (some (x, r)) ∧ r.Valid ∧ a ≠ [] ∧ v.bytes = a ++ r.bytes := by
  by_cases h0 : (strtof (v.bytes ++ [0#8])).2 = 0
  · left
    rw [parse_f32_eq hv, if_pos h0]
  · right
    have hn : (strtof (v.bytes ++ [0#8])).2 ≤ v.bytes.length := by
      refine not_lt.mp fun hx => ?_
      refine strtof_nz (v.bytes ++ [0#8]) 0#8 ?_ rfl
      rw [List.take_of_length_le (by simp; omega)]
      simp
    have hne : v.bytes.take (strtof (v.bytes ++ [0#8])).2 ≠ [] := by
      intro hx
      have := congrArg List.length hx
      rw [List.length_take, Nat.min_eq_left hn] at this
      exact h0 this
    obtain ⟨r, h1, h2, h3⟩ := parse_f32_of hv (List.take_append_drop _ _).symm hne (x := (strtof (v.bytes ++ [0#8])).1) (by
      rw [List.length_take, Nat.min_eq_left hn])
    exact ⟨_, r, _, h1, h2, hne, by rw [h3]; exact (List.take_append_drop _ _).symm⟩

/-- Text that does not begin like a number. -/
theorem parse_f32_none {v : View} (hv : v.Valid) {ws rest : List Byte} (hb : v.bytes = ws ++ rest) (hws : ∀ b ∈ ws, isspace b = true)
    (hr : ∀ b, rest.head? = some b → isspace b = false ∧ isdigit b = false ∧ b ∉ lit "+-.iInN") : parse_f32 v = .ok none := by
  have hr' := head_end hr (by decide)
  rw [parse_f32_eq hv, if_pos]
  rw [hb, List.append_assoc]
  unfold strtof
  have e1 : (ws ++ (rest ++ [0#8])).takeWhile isspace = ws := takeWhile_all hws (fun b hb => (hr' b hb).1)
  simp only [e1, List.drop_left]
  generalize rest ++ [0#8] = t at hr'
  have hl : lit "+-.iInN" = [ch '+', ch '-', ch '.', ch 'i', ch 'I', ch 'n', ch 'N'] := by decide
  match t with
  | [] => simp [mantissa, show lit "0x" ≠ [] by decide, show lit "infinity" ≠ [] by decide, show lit "inf" ≠ [] by decide, show lit "nan" ≠ [] by decide]
  | c :: t =>
    have hc := hr' c rfl
    rw [hl] at hc
    simp only [List.mem_cons, not_or, List.not_mem_nil] at hc
    obtain ⟨_, hd, hp, hm, hdot, hi, hI, hn, hN, _⟩ := hc
    have hi' : ∀ b : Byte, b ≠ ch 'i' → b ≠ ch 'I' → low b ≠ ch 'i' := by decide +kernel
    have hn' : ∀ b : Byte, b ≠ ch 'n' → b ≠ ch 'N' → low b ≠ ch 'n' := by decide +kernel
    have h0' : ∀ b : Byte, isdigit b = false → low b ≠ ch '0' := by decide +kernel
    have e1 : lit "inf" = [ch 'i', ch 'n', ch 'f'] := by decide
    have e3 : lit "nan" = [ch 'n', ch 'a', ch 'n'] := by decide
    have e4 : lit "infinity" = [ch 'i', ch 'n', ch 'f', ch 'i', ch 'n', ch 'i', ch 't', ch 'y'] := by decide
    have e5 : lit "0x" = [ch '0', ch 'x'] := by decide
    simp [mantissa, e1, e3, e4, e5, hd, hp, hm, hdot, hi' c hi hI, hn' c hn hN, h0' c hd]

end Rpp.FloatText
