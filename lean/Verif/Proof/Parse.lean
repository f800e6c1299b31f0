import Verif.Proof.FormatRun

/-! The parsers. -/

namespace Rpp
open Rpp.Spec Rpp.Fmt

theorem white_iff (b : Byte) : is_whitespace b = true ↔ White b := by
  unfold is_whitespace White
  simp only [List.mem_cons, List.not_mem_nil, or_false, Bool.or_eq_true, decide_eq_true_eq]
  grind

theorem not_white {b : Byte} (h : ¬ White b) : is_whitespace b = false := by
  rw [← Bool.not_eq_true]
  exact fun h' => h ((white_iff b).mp h')

/-! ### `strtoll` -/

theorem isdigit_digit : ∀ n, n < 10 → isdigit (BitVec.ofNat 8 (48 + n)) = true ∧
    (BitVec.ofNat 8 (48 + n)).toNat - 48 = n ∧ isspace (BitVec.ofNat 8 (48 + n)) = false ∧
    BitVec.ofNat 8 (48 + n) ≠ ch '-' ∧ BitVec.ofNat 8 (48 + n) ≠ ch '+' := by decide

theorem digits_isdigit : ∀ f n, ∀ b ∈ digits f n, isdigit b = true
  | 0, _, b, h => by simp [digits] at h
  | f + 1, n, b, h => by
    unfold digits at h
    split at h
    · simp only [List.mem_singleton] at h; subst h; exact (isdigit_digit n (by assumption)).1
    · rcases List.mem_append.mp h with h | h
      · exact digits_isdigit f _ b h
      · simp only [List.mem_singleton] at h; subst h
        exact (isdigit_digit _ (Nat.mod_lt _ (by omega))).1

theorem digits_value : ∀ f n, n < 10 ^ f → 0 < f →
    (digits f n).foldl (fun a d => 10 * a + (d.toNat - 48)) 0 = n
  | 0, _, _, h => by omega
  | f + 1, n, h, _ => by
    unfold digits
    by_cases h1 : n < 10
    · rw [if_pos h1]
      simp only [List.foldl_cons, List.foldl_nil]
      rw [(isdigit_digit n h1).2.1]; omega
    · rw [if_neg h1]
      have h2 : n / 10 < 10 ^ f := by
        rw [Nat.pow_succ] at h
        exact Nat.div_lt_of_lt_mul (by omega)
      have h3 : 0 < f := by
        rcases Nat.eq_zero_or_pos f with h0 | h0
        · subst h0; simp at h; omega
        · exact h0
      rw [List.foldl_append, digits_value f _ h2 h3]
      simp only [List.foldl_cons, List.foldl_nil]
      rw [(isdigit_digit (n % 10) (Nat.mod_lt _ (by omega))).2.1]
      omega

theorem digits_ne_nil : ∀ f n, 0 < f → digits f n ≠ []
  | 0, _, h => by omega
  | f + 1, n, _ => by unfold digits; split <;> simp

theorem isdigit_plain : ∀ b : Byte, isdigit b = true → isspace b = false ∧ b ≠ ch '-' ∧ b ≠ ch '+' := by
  decide +kernel

theorem takeWhile_all {p : Byte → Bool} {a b : List Byte} (ha : ∀ x ∈ a, p x = true)
    (hb : ∀ x, b.head? = some x → p x = false) : (a ++ b).takeWhile p = a := by
  induction a with
  | nil =>
    cases b with
    | nil => rfl
    | cons x b => rw [List.nil_append, List.takeWhile_cons_of_neg]; simp [hb x rfl]
  | cons x a ih =>
    rw [List.cons_append, List.takeWhile_cons_of_pos (ha x (by simp)),
      ih (fun y hy => ha y (by simp [hy]))]

/-- `strtoll` on white space, a sign and digits. -/
theorem strtoll_eq {ws sg ds r : List Byte} (h1 : ∀ b ∈ ws, isspace b = true)
    (h2 : sg = [] ∨ sg = [ch '-'] ∨ sg = [ch '+']) (h3 : ∀ b ∈ ds, isdigit b = true) (h4 : ds ≠ [])
    (h5 : ∀ b, r.head? = some b → isdigit b = false) :
    strtoll (ws ++ (sg ++ (ds ++ r))) =
      (max (- 2 ^ 63) (min (2 ^ 63 - 1)
        (if sg = [ch '-'] then - ((ds.foldl (fun a d => 10 * a + (d.toNat - 48)) 0 : Nat) : Int)
          else ((ds.foldl (fun a d => 10 * a + (d.toNat - 48)) 0 : Nat) : Int))),
       ws.length + sg.length + ds.length) := by
  obtain ⟨d, ds', rfl⟩ := List.exists_cons_of_ne_nil h4
  have hd := isdigit_plain d (h3 d (by simp))
  have e1 : (ws ++ (sg ++ (d :: ds' ++ r))).takeWhile isspace = ws := by
    refine takeWhile_all h1 ?_
    intro x hx
    rcases h2 with rfl | rfl | rfl
    · simp at hx; subst hx; exact hd.1
    · simp at hx; subst hx; decide
    · simp at hx; subst hx; decide
  unfold strtoll
  simp only [e1, List.drop_left]
  have e2 : (if (sg ++ (d :: ds' ++ r)).head? = some (ch '-') ∨
      (sg ++ (d :: ds' ++ r)).head? = some (ch '+') then 1 else 0) = sg.length := by
    rcases h2 with rfl | rfl | rfl
    · simp [hd.2.1, hd.2.2]
    · simp
    · simp
  rw [e2, List.drop_left, takeWhile_all h3 h5, if_neg h4]
  have e3 : ((sg ++ (d :: ds' ++ r)).head? = some (ch '-')) ↔ sg = [ch '-'] := by
    rcases h2 with rfl | rfl | rfl
    · simp [hd.2.1]
    · simp
    · simp [show ch '+' ≠ ch '-' by decide]
  simp only [e3]

theorem mapM_some (f : Option Byte → Res Byte) (hf : ∀ b, f (some b) = .ok b) (l : List Byte) :
    (l.map some).mapM f = .ok l := by
  induction l with
  | nil => rfl
  | cons x l ih =>
    rw [List.map_cons, List.mapM_cons, ih, hf]
    rfl

theorem terminate_eq {v : View} (hv : v.Valid) :
    Str.terminate v = .ok ⟨(v.bytes ++ [0#8]).map some, v.len + 1⟩ := by
  have lv := View.bytes_length hv
  have := hv.1; have := hv.2
  unfold Str.terminate
  rw [wadd_eq (by omega), bytesOf_spec hv]
  simp only [bind, Except.bind, Str.set_length, Str.withCapacity, List.length_replicate, Nat.le_refl,
    if_true]
  rw [copyIn_spec (by simp; omega)]
  simp only [Str.assign]
  rw [if_neg (by omega), if_pos (by simp; omega)]
  simp only [List.take_zero, List.nil_append, List.map_append, Nat.zero_add]
  rw [List.set_append_right _ _ (by simp [lv])]
  simp only [List.length_map, lv, Nat.sub_self, List.drop_replicate]
  rw [show v.len + 1 - v.len = 1 by omega]
  rfl

theorem sub_eq {v : View} {a b : Nat} (h1 : a ≤ b) (h2 : b ≤ v.len) :
    v.sub a b = .ok ⟨v.mem, v.off + a, b - a⟩ := by
  unfold View.sub
  rw [if_neg (by omega), if_neg (by omega)]

/-- `parse_i64` in terms of `strtoll`. -/
theorem parse_i64_eq {v : View} (hv : v.Valid) :
    parse_i64 v = (if (strtoll (v.bytes ++ [0#8])).2 = 0 then .ok none
      else (v.sub (strtoll (v.bytes ++ [0#8])).2 v.len).map
        (fun rest => some ((strtoll (v.bytes ++ [0#8])).1, rest))) := by
  unfold parse_i64
  rw [terminate_eq hv]
  simp only [ok_bind]
  rw [mapM_some _ (fun _ => rfl)]
  simp only [ok_bind]
  split
  · rfl
  · cases v.sub (strtoll (v.bytes ++ [0#8])).2 v.len <;> rfl

/-! ### `parse_string` -/

theorem skipLoop_eq {v : View} (hv : v.Valid) : ∀ fuel i, v.len < fuel + i → i ≤ v.len →
    skipLoop v fuel i = .ok (i + ((v.bytes.drop i).takeWhile is_whitespace).length) := by
  intro fuel
  induction fuel with
  | zero => intro i h1 h2; omega
  | succ fuel ih =>
    intro i h1 h2
    unfold skipLoop
    cases hd : v.bytes.drop i with
    | nil => rw [if_neg (end_drop hv hd)]; simp
    | cons c r =>
      obtain ⟨a1, a2, a3⟩ := at_drop hv hd
      rw [if_pos a1]
      simp only [a2, ok_bind]
      by_cases hc : is_whitespace c = true
      · rw [if_pos hc, ih (i + 1) (by omega) (by omega), a3, List.takeWhile_cons_of_pos hc,
          List.length_cons]
        congr 1; omega
      · rw [if_neg hc, List.takeWhile_cons_of_neg hc]; rfl

/-- The loop of `parse_string`, when the token reaches from `start` to `j`. -/
theorem tokenLoop_eq {v : View} (hv : v.Valid) {start j : Nat} (hsj : start < j) (hj : j ≤ v.len)
    (htok : ∀ k, start ≤ k → k < j → ∃ c r, v.bytes.drop k = c :: r ∧ is_whitespace c = false)
    (hend : j < v.len → ∃ c r, v.bytes.drop j = c :: r ∧ is_whitespace c = true) :
    ∀ fuel i, v.len < fuel + i → start ≤ i → i ≤ j → (j = v.len → start + 1 < j → i < j) →
    tokenLoop v start fuel i = .ok (
      if j = v.len then
        (if start + 1 < j then some (⟨v.mem, v.off + start, j - start⟩, View.null) else none)
      else if j + 1 = v.len then some (⟨v.mem, v.off + start, j + 1 - start⟩, View.null)
      else some (⟨v.mem, v.off + start, j - start⟩, ⟨v.mem, v.off + (j + 1), v.len - (j + 1)⟩)) := by
  intro fuel
  induction fuel with
  | zero => intro i h1 h2 h3 _; omega
  | succ fuel ih =>
    intro i h1 h2 h3 h4
    unfold tokenLoop
    by_cases hi : i < v.len
    · rw [if_pos hi]
      by_cases hlast : i + 1 = v.len ∧ start < i
      · rw [if_pos hlast, sub_eq (by omega) (by omega)]
        simp only [ok_bind, pure_ok]
        by_cases hjn : j = v.len
        · rw [if_pos hjn, if_pos (by omega)]
          rw [show i + 1 = j by omega]
        · rw [if_neg hjn, if_pos (by omega)]
          rw [show i = j by omega]
      · rw [if_neg hlast]
        by_cases hij : i < j
        · obtain ⟨c, r, e1, e2⟩ := htok i h2 hij
          obtain ⟨a1, a2, a3⟩ := at_drop hv e1
          simp only [a2, ok_bind, e2, Bool.false_eq_true, if_false]
          refine ih (i + 1) (by omega) (by omega) (by omega) (fun h5 h6 => ?_)
          rcases Nat.lt_or_ge (i + 1) j with h7 | h7
          · exact h7
          · exfalso; exact hlast ⟨by omega, by omega⟩
        · have hij : i = j := by omega
          subst hij
          obtain ⟨c, r, e1, e2⟩ := hend hi
          obtain ⟨a1, a2, a3⟩ := at_drop hv e1
          simp only [a2, ok_bind, e2, if_true]
          rw [sub_eq (by omega) (by omega), sub_eq (by omega) (by omega)]
          simp only [ok_bind, pure_ok]
          rw [if_neg (by omega), if_neg (by intro h; exact hlast ⟨h, by omega⟩)]
    · rw [if_neg hi]
      have hjn : j = v.len := by omega
      rw [if_pos hjn]
      by_cases h5 : start + 1 < j
      · have := h4 hjn h5; omega
      · rw [if_neg h5]

/-- `parse_string` on white space `w`, a token `t`, and `r`. -/
theorem parse_string_eq {v : View} (hv : v.Valid) {w t r : List Byte} (e : v.bytes = w ++ (t ++ r))
    (hw : ∀ b ∈ w, is_whitespace b = true) (ht : ∀ b ∈ t, is_whitespace b = false) (ht0 : t ≠ [])
    (hr : ∀ b, r.head? = some b → is_whitespace b = true) :
    parse_string v = .ok (
      if r = [] then
        (if 1 < t.length then some (⟨v.mem, v.off + w.length, t.length⟩, View.null) else none)
      else if r.length = 1 then some (⟨v.mem, v.off + w.length, t.length + 1⟩, View.null)
      else some (⟨v.mem, v.off + w.length, t.length⟩,
        ⟨v.mem, v.off + (w.length + t.length + 1), r.length - 1⟩)) := by
  have lv := View.bytes_length hv
  have hlen : w.length + t.length + r.length = v.len := by
    rw [← lv, e]; simp; omega
  have h0 : 0 < t.length := List.length_pos_iff.mpr ht0
  unfold parse_string
  rw [skipLoop_eq hv _ _ (by omega) (by omega), List.drop_zero, e]
  have hsk : (w ++ (t ++ r)).takeWhile is_whitespace = w := by
    refine takeWhile_all hw (fun x hx => ?_)
    obtain ⟨a, t', rfl⟩ := List.exists_cons_of_ne_nil ht0
    simp at hx; subst hx
    exact ht a (by simp)
  rw [hsk]
  simp only [ok_bind, Nat.zero_add]
  rw [tokenLoop_eq hv (start := w.length) (j := w.length + t.length) (by omega) (by omega) ?_ ?_
    (v.len + 1) w.length (by omega) (by omega) (by omega) (fun _ _ => by omega)]
  · congr 1
    by_cases hr0 : r = []
    · subst hr0
      simp only [List.length_nil] at hlen
      rw [if_pos (by omega), if_pos rfl]
      by_cases h1 : 1 < t.length
      · rw [if_pos (by omega), if_pos h1]; congr 3; omega
      · rw [if_neg (by omega), if_neg h1]
    · have : 0 < r.length := List.length_pos_iff.mpr hr0
      rw [if_neg (by omega), if_neg hr0]
      by_cases h1 : r.length = 1
      · rw [if_pos (by omega), if_pos h1]; congr 3; omega
      · rw [if_neg (by omega), if_neg h1]
        congr 3
        · omega
        · omega
  · intro k hk1 hk2
    have hkl : k < v.bytes.length := by omega
    refine ⟨v.bytes[k], v.bytes.drop (k + 1), List.drop_eq_getElem_cons hkl, ?_⟩
    refine ht _ ?_
    have : v.bytes[k] = t[k - w.length]'(by omega) := by
      simp only [e]
      rw [List.getElem_append_right (by omega), List.getElem_append_left (by omega)]
    rw [this]
    exact List.getElem_mem _
  · intro hj
    have hj' : w.length + t.length < v.bytes.length := by omega
    have hr1 : v.bytes.drop (w.length + t.length) = r := by
      rw [e, ← List.append_assoc, List.drop_left' (by simp)]
    cases r with
    | nil => simp at hlen; omega
    | cons c r => exact ⟨c, r, hr1, hr c rfl⟩

theorem parse_string_blank {v : View} (hv : v.Valid) (hw : ∀ b ∈ v.bytes, is_whitespace b = true) :
    parse_string v = .ok none := by
  have lv := View.bytes_length hv
  unfold parse_string
  rw [skipLoop_eq hv _ _ (by omega) (by omega), List.drop_zero]
  have : v.bytes.takeWhile is_whitespace = v.bytes := by
    have := takeWhile_all (a := v.bytes) (b := []) (p := is_whitespace) hw (by simp)
    simpa using this
  rw [this, lv]
  simp only [ok_bind, Nat.zero_add]
  unfold tokenLoop
  rw [if_neg (by omega)]

/-! ### `parse_enum` -/

theorem enumLoop_eq {name rest : View} (hn : name.Valid) (h0 : 0#8 ∉ name.bytes) :
    ∀ (cases : List (List Byte × Int)) ret, (∀ c ∈ cases, c.1.length < 2 ^ 63) →
    enumLoop name rest ret cases =
      .ok (cases.foldl (fun ret c => if name.bytes = c.1 then some (c.2, rest) else ret) ret)
  | [], _, _ => rfl
  | (check, value) :: r, ret, hl => by
    unfold enumLoop
    have hc := View.of_valid (hl (check, value) (by simp))
    rw [eq_spec hn hc, View.of_bytes]
    simp only [ok_bind, List.foldl_cons]
    rw [enumLoop_eq hn h0 r _ (fun c h => hl c (List.mem_cons_of_mem _ h))]
    have e : (name.bytes.length = check.length ∧ cstr name.bytes = cstr check) ↔ name.bytes = check := by
      constructor
      · rintro ⟨h1, h2⟩; exact cstr_eq_of_free h0 h1 h2
      · intro h; rw [h]; exact ⟨rfl, rfl⟩
    simp only [decide_eq_true_eq, e]

theorem foldl_find {β : Type} {P : (List Byte × Int) → Prop} [DecidablePred P] {f : (List Byte × Int) → β}
    {c : List Byte × Int} : ∀ (l : List (List Byte × Int)) (init : β), c ∈ l → P c →
    (∀ d ∈ l, P d → f d = f c) → l.foldl (fun ret d => if P d then f d else ret) init = f c := by
  have stable : ∀ (l : List (List Byte × Int)) (init : β), init = f c → (∀ d ∈ l, P d → f d = f c) →
      l.foldl (fun ret d => if P d then f d else ret) init = f c := by
    intro l
    induction l with
    | nil => intro init h _; exact h
    | cons a l ih =>
      intro init h hd
      rw [List.foldl_cons]
      refine ih _ ?_ (fun d h => hd d (List.mem_cons_of_mem _ h))
      split
      · exact hd a (by simp) (by assumption)
      · exact h
  intro l
  induction l with
  | nil => intro init h; cases h
  | cons a l ih =>
    intro init hm hp hd
    rw [List.foldl_cons]
    rcases List.mem_cons.mp hm with rfl | hm
    · rw [if_pos hp]
      exact stable l _ rfl (fun d h => hd d (List.mem_cons_of_mem _ h))
    · exact ih _ hm hp (fun d h => hd d (List.mem_cons_of_mem _ h))

theorem inj_of_nodup {α β : Type} {f : α → β} {l : List α} (h : (l.map f).Nodup) {a b : α} (ha : a ∈ l)
    (hb : b ∈ l) (e : f a = f b) : a = b := by
  induction l with
  | nil => cases ha
  | cons x l ih =>
    rw [List.map_cons, List.nodup_cons] at h
    rcases List.mem_cons.mp ha with h1 | h1 <;> rcases List.mem_cons.mp hb with h2 | h2
    · rw [h1, h2]
    · subst h1; exact absurd (e ▸ List.mem_map_of_mem h2) h.1
    · subst h2; exact absurd (e ▸ List.mem_map_of_mem h1) h.1
    · exact ih h.2 h1 h2

end Rpp
