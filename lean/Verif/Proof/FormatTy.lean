import Verif.Spec.FormatTy
import Verif.Proof.Parse
import Verif.Proof.FormatText
import Mathlib.Data.List.Nodup

/-! Values can be read off their text. -/

namespace Rpp
open Rpp.Spec Rpp.Fmt

/-- What may follow the text of a value: nothing, or a space, a comma or a closing bracket. -/
def Stop (r : List Byte) : Prop := ∀ b, r.head? = some b → b = 32#8 ∨ b = 44#8 ∨ b = 93#8 ∨ b = 125#8

theorem Stop.nil : Stop [] := by intro b h; cases h

theorem Stop.cons {b : Byte} {r : List Byte} (h : b = 32#8 ∨ b = 44#8 ∨ b = 93#8 ∨ b = 125#8) : Stop (b :: r) := by
  intro c hc; simp at hc; subst hc; exact h

theorem lit_sep : lit ", " = [44#8, 32#8] := by decide +kernel
theorem lit_colon : lit " : " = [32#8, 58#8, 32#8] := by decide +kernel
theorem lit_rbr : lit "]" = [93#8] := by decide +kernel
theorem lit_rbrace : lit "}" = [125#8] := by decide +kernel
theorem lit_lbrace : lit "{" = [123#8] := by decide +kernel
theorem lit_none : lit "None}" = [78#8, 111#8, 110#8, 101#8, 125#8] := by decide +kernel
theorem lit_null : lit "null}" = [110#8, 117#8, 108#8, 108#8, 125#8] := by decide +kernel
theorem lit_cc : lit "::" = [58#8, 58#8] := by decide +kernel
theorem lit_brk : lit "]{" = [93#8, 123#8] := by decide +kernel
theorem lit_word : lit " ,[]{}" = [32#8, 44#8, 91#8, 93#8, 123#8, 125#8] := by decide +kernel

/-- Two texts of one kind of bytes, each followed by another kind. -/
theorem cut {p : Byte → Prop} : ∀ {a b r r' : List Byte}, (∀ x ∈ a, p x) → (∀ x ∈ b, p x) →
    (∀ x, r.head? = some x → ¬ p x) → (∀ x, r'.head? = some x → ¬ p x) → a ++ r = b ++ r' → a = b ∧ r = r'
  | [], [], _, _, _, _, _, _, h => ⟨rfl, h⟩
  | [], y :: b, r, r', _, hb, hr, _, h => by
    simp only [List.nil_append, List.cons_append] at h
    subst h
    exact absurd (hb y (by simp)) (hr y rfl)
  | x :: a, [], r, r', ha, _, _, hr', h => by
    simp only [List.nil_append, List.cons_append] at h
    subst h
    exact absurd (ha x (by simp)) (hr' x rfl)
  | x :: a, y :: b, r, r', ha, hb, hr, hr', h => by
    simp only [List.cons_append, List.cons.injEq] at h
    obtain ⟨rfl, h⟩ := h
    obtain ⟨rfl, e⟩ := cut (fun z hz => ha z (by simp [hz])) (fun z hz => hb z (by simp [hz])) hr hr' h
    exact ⟨rfl, e⟩

theorem stop_digit {r : List Byte} (h : Stop r) : ∀ x, r.head? = some x → ¬ isdigit x = true := by
  intro x hx
  rcases h x hx with rfl | rfl | rfl | rfl <;> decide

theorem digits_cut {n m : Nat} (hn : n < 10 ^ 20) (hm : m < 10 ^ 20) {r r' : List Byte}
    (hr : ∀ x, r.head? = some x → ¬ isdigit x = true) (hr' : ∀ x, r'.head? = some x → ¬ isdigit x = true)
    (h : digits 20 n ++ r = digits 20 m ++ r') : n = m ∧ r = r' := by
  obtain ⟨e, e'⟩ := cut (p := fun b => isdigit b = true) (digits_isdigit 20 n) (digits_isdigit 20 m) hr hr' h
  refine ⟨?_, e'⟩
  rw [← digits_value 20 n hn (by omega), ← digits_value 20 m hm (by omega), e]

theorem digits_cons (n : Nat) : ∃ d t, digits 20 n = d :: t ∧ isdigit d = true := by
  cases e : digits 20 n with
  | nil => exact absurd e (digits_ne_nil 20 n (by omega))
  | cons d t => exact ⟨d, t, rfl, digits_isdigit 20 n d (by rw [e]; simp)⟩

theorem decimal_cut {n m : Int} (hn : Whole64 n) (hm : Whole64 m) {r r' : List Byte}
    (hr : ∀ x, r.head? = some x → ¬ isdigit x = true) (hr' : ∀ x, r'.head? = some x → ¬ isdigit x = true)
    (h : decimal n ++ r = decimal m ++ r') : n = m ∧ r = r' := by
  obtain ⟨n1, n2⟩ := hn
  obtain ⟨m1, m2⟩ := hm
  rw [← intText_eq n1 n2, ← intText_eq m1 m2] at h
  have hc : ch '-' = 45#8 := by decide
  obtain ⟨d, t, ed, hd⟩ := digits_cons n.natAbs
  obtain ⟨d', t', ed', hd'⟩ := digits_cons m.natAbs
  have no : ¬ isdigit (45#8) = true := by decide
  unfold intText at h
  rw [hc] at h
  by_cases h1 : n < 0 <;> by_cases h2 : m < 0
  · rw [if_pos h1, if_pos h2] at h
    simp only [List.cons_append, List.cons.injEq, true_and] at h
    obtain ⟨e, e'⟩ := digits_cut (by omega) (by omega) hr hr' h
    exact ⟨by omega, e'⟩
  · rw [if_pos h1, if_neg h2, ed'] at h
    simp only [List.cons_append, List.cons.injEq] at h
    rw [← h.1] at hd'
    exact absurd hd' no
  · rw [if_neg h1, if_pos h2, ed] at h
    simp only [List.cons_append, List.cons.injEq] at h
    rw [h.1] at hd
    exact absurd hd no
  · rw [if_neg h1, if_neg h2] at h
    obtain ⟨e, e'⟩ := digits_cut (by omega) (by omega) hr hr' h
    exact ⟨by omega, e'⟩

/-- The first byte of a number is a digit or a minus sign. -/
theorem decimal_head {n : Int} (hn : Whole64 n) : ∃ d t, decimal n = d :: t ∧ (isdigit d = true ∨ d = 45#8) := by
  rw [← intText_eq hn.1 hn.2]
  unfold intText
  split
  · exact ⟨_, _, rfl, Or.inr (by decide)⟩
  · obtain ⟨d, t, e, h⟩ := digits_cons n.natAbs
    exact ⟨d, t, e, Or.inl h⟩

/-- The items after the first. -/
def tailText (ls : List (List Byte)) : List Byte := (ls.map (lit ", " ++ ·)).flatten

theorem join_cons (a : List Byte) : ∀ ls, join (lit ", ") (a :: ls) = a ++ tailText ls
  | [] => by simp [join, tailText]
  | b :: ls => by rw [join, join_cons b ls]; simp [tailText]

theorem tailText_cons (b : List Byte) (ls : List (List Byte)) : tailText (b :: ls) = lit ", " ++ (b ++ tailText ls) := by
  simp [tailText]

/-- Two values of a kind whose texts agree are the same. -/
def Dec (S : Val → Prop) : Prop := ∀ v w, S v → S w → ∀ r r', Stop r → Stop r' →
  render v ++ r = render w ++ r' → v = w ∧ r = r'

theorem stop_tail (ls : List (List Byte)) {c : Byte} {r : List Byte} (hc : c = 93#8 ∨ c = 125#8) : Stop (tailText ls ++ c :: r) := by
  cases ls with
  | nil => exact Stop.cons (by rcases hc with h | h <;> simp [h])
  | cons b ls => rw [tailText_cons, lit_sep]; exact Stop.cons (by simp)

theorem tail_dec {S : Val → Prop} (hS : Dec S) {c : Byte} (hc : c = 93#8 ∨ c = 125#8) {r r' : List Byte} : ∀ l l' : List Val,
    (∀ x ∈ l, S x) → (∀ x ∈ l', S x) →
    tailText (renderAll l) ++ c :: r = tailText (renderAll l') ++ c :: r' → l = l' ∧ r = r'
  | [], [], _, _, h => by simpa [renderAll, tailText] using h
  | [], y :: l', _, _, h => by
    rw [renderAll, renderAll, tailText_cons, lit_sep] at h
    simp [tailText] at h
    rcases hc with rfl | rfl <;> exact absurd h.1 (by decide)
  | x :: l, [], _, _, h => by
    rw [renderAll, renderAll, tailText_cons, lit_sep] at h
    simp [tailText] at h
    rcases hc with rfl | rfl <;> exact absurd h.1 (by decide)
  | x :: l, y :: l', hl, hl', h => by
    simp only [renderAll, tailText_cons, List.append_assoc, List.append_cancel_left_eq] at h
    obtain ⟨rfl, e⟩ := hS x y (hl x (by simp)) (hl' y (by simp)) _ _ (stop_tail _ hc) (stop_tail _ hc) h
    obtain ⟨rfl, e'⟩ := tail_dec hS hc l l' (fun z hz => hl z (by simp [hz])) (fun z hz => hl' z (by simp [hz])) e
    exact ⟨rfl, e'⟩

/-- Texts that do not begin with a closing bracket. -/
def Opens (S : Val → Prop) : Prop := ∀ v, S v → ∃ b q, render v = b :: q ∧ b ≠ 93#8 ∧ b ≠ 125#8

theorem items_dec {S : Val → Prop} (hS : Dec S) (ho : Opens S) {c : Byte} (hc : c = 93#8 ∨ c = 125#8) {r r' : List Byte} :
    ∀ l l' : List Val, (∀ x ∈ l, S x) → (∀ x ∈ l', S x) →
    join (lit ", ") (renderAll l) ++ c :: r = join (lit ", ") (renderAll l') ++ c :: r' → l = l' ∧ r = r'
  | [], [], _, _, h => by simpa [renderAll, join] using h
  | [], y :: l', _, hl', h => by
    obtain ⟨b, q, e, h1, h2⟩ := ho y (hl' y (by simp))
    rw [renderAll, renderAll, join_cons, e] at h
    simp [join] at h
    rcases hc with rfl | rfl
    · exact absurd h.1.symm h1
    · exact absurd h.1.symm h2
  | x :: l, [], hl, _, h => by
    obtain ⟨b, q, e, h1, h2⟩ := ho x (hl x (by simp))
    rw [renderAll, renderAll, join_cons, e] at h
    simp [join] at h
    rcases hc with rfl | rfl
    · exact absurd h.1 h1
    · exact absurd h.1 h2
  | x :: l, y :: l', hl, hl', h => by
    simp only [renderAll, join_cons, List.append_assoc] at h
    obtain ⟨rfl, e⟩ := hS x y (hl x (by simp)) (hl' y (by simp)) _ _ (stop_tail _ hc) (stop_tail _ hc) h
    obtain ⟨rfl, e'⟩ := tail_dec hS hc l l' (fun z hz => hl z (by simp [hz])) (fun z hz => hl' z (by simp [hz])) e
    exact ⟨rfl, e'⟩

/-- The same for one value of each of several kinds. -/
def DecAll (S : List Val → Prop) : Prop := ∀ (c : Byte), c = 93#8 ∨ c = 125#8 → ∀ l l', S l → S l' → ∀ r r',
  (tailText (renderAll l) ++ c :: r = tailText (renderAll l') ++ c :: r' → l = l' ∧ r = r') ∧
  (join (lit ", ") (renderAll l) ++ c :: r = join (lit ", ") (renderAll l') ++ c :: r' → l = l' ∧ r = r')

theorem decAll_nil : DecAll (HasAll []) := by
  intro c hc l l' h h' r r'
  unfold HasAll at h h'
  subst h; subst h'
  simp [renderAll, tailText, join]

theorem decAll_cons {t : FTy} {ts : List FTy} (h1 : Dec (HasTy t)) (h2 : DecAll (HasAll ts)) : DecAll (HasAll (t :: ts)) := by
  intro c hc l l' h h' r r'
  unfold HasAll at h h'
  obtain ⟨x, k, rfl, hx, hk⟩ := h
  obtain ⟨y, k', rfl, hy, hk'⟩ := h'
  constructor
  · intro h
    simp only [renderAll, tailText_cons, List.append_assoc, List.append_cancel_left_eq] at h
    obtain ⟨rfl, e⟩ := h1 x y hx hy _ _ (stop_tail _ hc) (stop_tail _ hc) h
    obtain ⟨rfl, e'⟩ := (h2 c hc k k' hk hk' r r').1 e
    exact ⟨rfl, e'⟩
  · intro h
    simp only [renderAll, join_cons, List.append_assoc] at h
    obtain ⟨rfl, e⟩ := h1 x y hx hy _ _ (stop_tail _ hc) (stop_tail _ hc) h
    obtain ⟨rfl, e'⟩ := (h2 c hc k k' hk hk' r r').1 e
    exact ⟨rfl, e'⟩

theorem word_head {n : List Byte} (h : Word n) : ∃ b q, n = b :: q ∧ b ∉ lit " ,[]{}" := by
  cases n with
  | nil => exact absurd rfl h.1
  | cons b q => exact ⟨b, q, rfl, h.2 b (by simp)⟩

/-- What is not the text of a value: an empty pointer. -/
def NotNull (S : Val → Prop) : Prop := ∀ v, S v → ∀ r r', render v ++ 125#8 :: r ≠ lit "None}" ++ r' ∧ render v ++ 125#8 :: r ≠ lit "null}" ++ r'

theorem word_null {n q r' : List Byte} {c : Byte} (h : Word n) (hc : c = 123#8 ∨ c = 58#8 ∨ c = 32#8) :
    n ++ c :: q ≠ lit "None}" ++ r' ∧ n ++ c :: q ≠ lit "null}" ++ r' := by
  have hb : ∀ b ∈ n, b ≠ 125#8 := fun b hb e => h.2 b hb (by rw [e, lit_word]; decide)
  rw [lit_none, lit_null]
  rcases n with _ | ⟨a0, _ | ⟨a1, _ | ⟨a2, _ | ⟨a3, _ | ⟨a4, n⟩⟩⟩⟩⟩
  · exact absurd rfl h.1
  all_goals
    rcases hc with rfl | rfl | rfl <;>
    · constructor <;>
      · intro e
        simp at e
        try exact absurd e.2.2.2.2.1 (hb _ (by simp))

/-- The pieces with which the texts of values begin. -/
theorem opens {t : FTy} (ht : t.OK) (hne : t ≠ .char) : Opens (HasTy t) := by
  have wh : ∀ {n : List Byte} (q : List Byte), Word n → ∃ b k, n ++ q = b :: k ∧ b ≠ 93#8 ∧ b ≠ 125#8 := by
    intro n q hw
    obtain ⟨b, k, rfl, hb⟩ := word_head hw
    rw [lit_word] at hb
    simp at hb
    exact ⟨b, k ++ q, rfl, hb.2.2.2.1, hb.2.2.2.2.2⟩
  have lt : ∀ (s : String) (q : List Byte), (lit s).head? ≠ none → (lit s).head? ≠ some 93#8 → (lit s).head? ≠ some 125#8 →
      ∃ b k, lit s ++ q = b :: k ∧ b ≠ 93#8 ∧ b ≠ 125#8 := by
    intro s q h0 h1 h2
    cases e : lit s with
    | nil => rw [e] at h0; exact absurd rfl h0
    | cons b k =>
      rw [e] at h1 h2
      exact ⟨b, k ++ q, rfl, fun h => h1 (by rw [h]; rfl), fun h => h2 (by rw [h]; rfl)⟩
  intro v hv
  cases t with
  | void => unfold HasTy at hv; subst hv; rw [render, ← List.append_nil (lit "void")]; exact lt _ _ (by decide) (by decide) (by decide)
  | bool =>
    unfold HasTy at hv; obtain ⟨b, rfl⟩ := hv
    cases b <;> exact ⟨_, _, rfl, by decide, by decide⟩
  | int =>
    unfold HasTy at hv; obtain ⟨n, rfl, hn⟩ := hv
    obtain ⟨d, q, e, h⟩ := decimal_head hn
    refine ⟨d, q, e, ?_, ?_⟩ <;> rintro rfl <;> revert h <;> decide
  | char => exact absurd rfl hne
  | enum name cases =>
    unfold HasTy at hv; obtain ⟨n, x, rfl, _⟩ := hv
    rw [render, List.append_assoc]; unfold FTy.OK at ht; exact wh _ ht.1
  | seq k t =>
    unfold HasTy at hv; obtain ⟨l, rfl, _⟩ := hv
    cases k <;> (rw [render, List.append_assoc]; exact lt _ _ (by decide) (by decide) (by decide))
  | map k t =>
    unfold HasTy at hv; obtain ⟨l, rfl, _⟩ := hv
    rw [render, List.append_assoc]; exact lt _ _ (by decide) (by decide) (by decide)
  | own k t =>
    unfold HasTy at hv
    rcases hv with rfl | ⟨x, rfl, _⟩
    · cases k <;> exact ⟨_, _, rfl, by decide, by decide⟩
    · cases k <;> (rw [render, List.append_assoc]; exact lt _ _ (by decide) (by decide) (by decide))
  | rc t =>
    unfold HasTy at hv
    rcases hv with rfl | ⟨x, n, rfl, _⟩
    · exact ⟨_, _, rfl, by decide, by decide⟩
    · simp only [render, List.append_assoc]; exact lt _ _ (by decide) (by decide) (by decide)
  | arc t =>
    unfold HasTy at hv
    rcases hv with rfl | ⟨x, n, rfl, _⟩
    · exact ⟨_, _, rfl, by decide, by decide⟩
    · simp only [render, List.append_assoc]; exact lt _ _ (by decide) (by decide) (by decide)
  | pair a b =>
    unfold HasTy at hv; obtain ⟨x, y, rfl, _⟩ := hv
    simp only [render, List.append_assoc]; exact lt _ _ (by decide) (by decide) (by decide)
  | tuple ts =>
    unfold HasTy at hv; obtain ⟨l, rfl, _⟩ := hv
    simp only [render, List.append_assoc]; exact lt _ _ (by decide) (by decide) (by decide)
  | record name ts =>
    unfold HasTy at hv; obtain ⟨l, rfl, _⟩ := hv
    unfold FTy.OK at ht
    simp only [render, List.append_assoc]; exact wh _ ht.1
  | field name t =>
    unfold HasTy at hv; obtain ⟨l, rfl, _⟩ := hv
    unfold FTy.OK at ht
    simp only [render, List.append_assoc]; exact wh _ ht.1
  | named name t =>
    unfold HasTy at hv; obtain ⟨l, rfl, _⟩ := hv
    unfold FTy.OK at ht
    simp only [render, List.append_assoc]; exact wh _ ht.1
  | variant ts =>
    unfold HasTy at hv; obtain ⟨l, rfl, _⟩ := hv
    simp only [render, List.append_assoc]; exact lt _ _ (by decide) (by decide) (by decide)
  | vecI s n =>
    unfold HasTy at hv; obtain ⟨l, rfl, _⟩ := hv
    simp only [render, List.append_assoc]; exact lt _ _ (by decide) (by decide) (by decide)

theorem notNull {t : FTy} (ht : t.OK) : NotNull (HasTy t) := by
  have lt : ∀ (s : String) (q r' : List Byte), (lit s).head? ≠ none → (lit s).head? ≠ some 78#8 → (lit s).head? ≠ some 110#8 →
      lit s ++ q ≠ lit "None}" ++ r' ∧ lit s ++ q ≠ lit "null}" ++ r' := by
    intro s q r' h0 h1 h2
    rw [lit_none, lit_null]
    cases e : lit s with
    | nil => rw [e] at h0; exact absurd rfl h0
    | cons b k =>
      rw [e] at h1 h2
      constructor
      · intro h; simp at h; exact h1 (by rw [h.1]; rfl)
      · intro h; simp at h; exact h2 (by rw [h.1]; rfl)
  have wn : ∀ {n : List Byte} (s : String) (c : Byte) (p q r' : List Byte), Word n → lit s = c :: p → c = 123#8 ∨ c = 58#8 ∨ c = 32#8 →
      n ++ (lit s ++ q) ≠ lit "None}" ++ r' ∧ n ++ (lit s ++ q) ≠ lit "null}" ++ r' := by
    intro n s c p q r' hw e hc
    rw [e]
    exact word_null hw hc
  intro v hv r r'
  cases t with
  | void => unfold HasTy at hv; subst hv; rw [render]; exact lt _ _ _ (by decide) (by decide) (by decide)
  | bool =>
    unfold HasTy at hv; obtain ⟨b, rfl⟩ := hv
    cases b <;> (simp only [render]; exact lt _ _ _ (by decide) (by decide) (by decide))
  | int =>
    unfold HasTy at hv; obtain ⟨n, rfl, hn⟩ := hv
    obtain ⟨d, q, e, h⟩ := decimal_head hn
    rw [render, e, lit_none, lit_null]
    constructor <;>
    · intro h'
      simp at h'
      rw [h'.1] at h
      revert h; decide
  | char =>
    unfold HasTy at hv; obtain ⟨c, rfl⟩ := hv
    rw [render, lit_none, lit_null]
    constructor <;> (intro h'; simp at h')
  | enum name cases =>
    unfold HasTy at hv; obtain ⟨n, x, rfl, _⟩ := hv
    unfold FTy.OK at ht
    simp only [render, List.append_assoc]; exact wn "::" _ _ _ _ ht.1 lit_cc (by simp)
  | seq k t =>
    unfold HasTy at hv; obtain ⟨l, rfl, _⟩ := hv
    cases k <;> (simp only [render, List.append_assoc]; exact lt _ _ _ (by decide) (by decide) (by decide))
  | map k t =>
    unfold HasTy at hv; obtain ⟨l, rfl, _⟩ := hv
    simp only [render, List.append_assoc]; exact lt _ _ _ (by decide) (by decide) (by decide)
  | own k t =>
    unfold HasTy at hv
    rcases hv with rfl | ⟨x, rfl, _⟩
    · cases k <;> (simp only [render]; exact lt _ _ _ (by decide) (by decide) (by decide))
    · cases k <;> (simp only [render, List.append_assoc]; exact lt _ _ _ (by decide) (by decide) (by decide))
  | rc t =>
    unfold HasTy at hv
    rcases hv with rfl | ⟨x, n, rfl, _⟩
    · simp only [render]; exact lt _ _ _ (by decide) (by decide) (by decide)
    · simp only [render, List.append_assoc]; exact lt _ _ _ (by decide) (by decide) (by decide)
  | arc t =>
    unfold HasTy at hv
    rcases hv with rfl | ⟨x, n, rfl, _⟩
    · simp only [render]; exact lt _ _ _ (by decide) (by decide) (by decide)
    · simp only [render, List.append_assoc]; exact lt _ _ _ (by decide) (by decide) (by decide)
  | pair a b =>
    unfold HasTy at hv; obtain ⟨x, y, rfl, _⟩ := hv
    simp only [render, List.append_assoc]; exact lt _ _ _ (by decide) (by decide) (by decide)
  | tuple ts =>
    unfold HasTy at hv; obtain ⟨l, rfl, _⟩ := hv
    simp only [render, List.append_assoc]; exact lt _ _ _ (by decide) (by decide) (by decide)
  | record name ts =>
    unfold HasTy at hv; obtain ⟨l, rfl, _⟩ := hv
    unfold FTy.OK at ht
    simp only [render, List.append_assoc]; exact wn "{" _ _ _ _ ht.1 lit_lbrace (by simp)
  | field name t =>
    unfold HasTy at hv; obtain ⟨l, rfl, _⟩ := hv
    unfold FTy.OK at ht
    simp only [render, List.append_assoc]; exact wn " : " _ _ _ _ ht.1 lit_colon (by simp)
  | named name t =>
    unfold HasTy at hv; obtain ⟨l, rfl, _⟩ := hv
    unfold FTy.OK at ht
    simp only [render, List.append_assoc]; exact wn "{" _ _ _ _ ht.1 lit_lbrace (by simp)
  | variant ts =>
    unfold HasTy at hv; obtain ⟨l, rfl, _⟩ := hv
    simp only [render, List.append_assoc]; exact lt _ _ _ (by decide) (by decide) (by decide)
  | vecI s n =>
    unfold HasTy at hv; obtain ⟨l, rfl, _⟩ := hv
    simp only [render, List.append_assoc]; exact lt _ _ _ (by decide) (by decide) (by decide)

/-- A text before a bracket in each case. -/
theorem brace_cut {n m q q' : List Byte} (hn : Word n) (hm : Word m) (h : n ++ (lit "{" ++ q) = m ++ (lit "{" ++ q')) : n = m ∧ q = q' := by
  rw [lit_lbrace] at h
  obtain ⟨e, e'⟩ := cut (p := fun b => b ≠ 123#8) (r := [123#8] ++ q) (r' := [123#8] ++ q')
    (fun b hb e => hn.2 b hb (by rw [e, lit_word]; decide)) (fun b hb e => hm.2 b hb (by rw [e, lit_word]; decide))
    (fun x hx => by simp at hx; simp [hx]) (fun x hx => by simp at hx; simp [hx]) h
  exact ⟨e, by simpa using e'⟩

theorem named_dec {name : List Byte} {t : FTy} (h : Dec (HasTy t)) : Dec (HasTy (.named name t)) := by
  intro v w hv hw r r' _ _ e
  unfold HasTy at hv hw
  obtain ⟨x, rfl, hx⟩ := hv
  obtain ⟨y, rfl, hy⟩ := hw
  simp only [render, List.append_assoc, List.append_cancel_left_eq, lit_rbrace, List.cons_append, List.nil_append] at e
  obtain ⟨rfl, e⟩ := h x y hx hy _ _ (Stop.cons (by simp)) (Stop.cons (by simp)) e
  exact ⟨rfl, by simpa using e⟩

theorem hasOne_name : ∀ {ts : List FTy} {v : Val}, (∀ t ∈ ts, t.alt ≠ none) → OKAll ts → HasOne ts v →
    ∃ n x, v = .named n x ∧ Word n ∧ some n ∈ ts.map FTy.alt
  | [], _, _, _, h => by unfold HasOne at h; exact h.elim
  | t :: ts, v, ha, ho, h => by
    unfold HasOne at h
    unfold OKAll at ho
    rcases h with h | h
    · cases ht : t with
      | named n k =>
        subst ht
        unfold HasTy at h
        obtain ⟨x, rfl, _⟩ := h
        have := ho.1
        unfold FTy.OK at this
        exact ⟨n, x, rfl, this.1, by simp [FTy.alt]⟩
      | _ => exact absurd (by rw [ht]; rfl) (ha t (by simp))
    · obtain ⟨n, x, h1, h2, h3⟩ := hasOne_name (fun k hk => ha k (by simp [hk])) ho.2 h
      exact ⟨n, x, h1, h2, by simp only [List.map_cons]; exact List.mem_cons_of_mem _ h3⟩

theorem hasOne_cons {t : FTy} {ts : List FTy} (h1 : Dec (HasTy t)) (h2 : Dec (HasOne ts)) (ha : ∀ k ∈ t :: ts, k.alt ≠ none)
    (ho : OKAll (t :: ts)) (hn : ((t :: ts).map FTy.alt).Nodup) : Dec (HasOne (t :: ts)) := by
  have ho' := ho
  unfold OKAll at ho'
  have mixed : ∀ v w, HasTy t v → HasOne ts w → ∀ r r', render v ++ r ≠ render w ++ r' := by
    intro v w hv hw r r' e
    obtain ⟨m, y, rfl, hm, hm'⟩ := hasOne_name (fun k hk => ha k (by simp [hk])) ho'.2 hw
    cases ht : t with
    | named n k =>
      subst ht
      unfold HasTy at hv
      obtain ⟨x, rfl, _⟩ := hv
      have hok := ho'.1
      unfold FTy.OK at hok
      simp only [render, List.append_assoc] at e
      obtain ⟨rfl, _⟩ := brace_cut hok.1 hm e
      rw [List.map_cons, List.nodup_cons] at hn
      exact hn.1 hm'
    | _ => exact absurd (by rw [ht]; rfl) (ha t (by simp))
  intro v w hv hw r r' hr hr' e
  unfold HasOne at hv hw
  rcases hv with hv | hv <;> rcases hw with hw | hw
  · exact h1 v w hv hw r r' hr hr' e
  · exact absurd e (mixed v w hv hw r r')
  · exact absurd e.symm (mixed w v hw hv r' r)
  · exact h2 v w hv hw r r' hr hr' e

theorem ints_dec : Dec (HasTy .int) := by
  intro v w hv hw r r' hr hr' e
  unfold HasTy at hv hw
  obtain ⟨n, rfl, hn⟩ := hv
  obtain ⟨m, rfl, hm⟩ := hw
  rw [render, render] at e
  obtain ⟨rfl, e'⟩ := decimal_cut hn hm (stop_digit hr) (stop_digit hr') e
  exact ⟨rfl, e'⟩

theorem seq_dec {k : Seq} {t : FTy} (h : Dec (HasTy t)) (ho : Opens (HasTy t)) : Dec (HasTy (.seq k t)) := by
  intro v w hv hw r r' _ _ e
  unfold HasTy at hv hw
  obtain ⟨l, rfl, hl⟩ := hv
  obtain ⟨l', rfl, hl'⟩ := hw
  have key : join (lit ", ") (renderAll l) ++ 93#8 :: r = join (lit ", ") (renderAll l') ++ 93#8 :: r' := by
    cases k <;>
    · simp only [render, List.append_assoc, List.append_cancel_left_eq, lit_rbr, List.cons_append, List.nil_append] at e
      exact e
  obtain ⟨rfl, e'⟩ := items_dec h ho (Or.inl rfl) l l' hl hl' key
  exact ⟨rfl, e'⟩

theorem map_dec {k t : FTy} (hk : Dec (HasTy k)) (ht : Dec (HasTy t)) : Dec (HasTy (.map k t)) := by
  have hi : Dec (fun x => ∃ a b, x = Val.item a b ∧ HasTy k a ∧ HasTy t b) := by
    rintro v w ⟨a, b, rfl, ha, hb⟩ ⟨c, d, rfl, hc, hd⟩ r r' _ _ e
    simp only [render, List.append_assoc, List.append_cancel_left_eq] at e
    have hs : ∀ q, Stop (lit " : " ++ q) := fun q => by rw [lit_colon]; exact Stop.cons (by simp)
    obtain ⟨rfl, e1⟩ := hk a c ha hc _ _ (hs _) (hs _) e
    simp only [List.append_cancel_left_eq, lit_rbrace, List.cons_append, List.nil_append] at e1
    obtain ⟨rfl, e2⟩ := ht b d hb hd _ _ (Stop.cons (by simp)) (Stop.cons (by simp)) e1
    exact ⟨rfl, by simpa using e2⟩
  have ho : Opens (fun x => ∃ a b, x = Val.item a b ∧ HasTy k a ∧ HasTy t b) := by
    rintro v ⟨a, b, rfl, _⟩
    simp only [render, List.append_assoc, lit_lbrace]
    exact ⟨_, _, rfl, by decide, by decide⟩
  intro v w hv hw r r' _ _ e
  unfold HasTy at hv hw
  obtain ⟨l, rfl, hl⟩ := hv
  obtain ⟨l', rfl, hl'⟩ := hw
  simp only [render, List.append_assoc, List.append_cancel_left_eq, lit_rbr, List.cons_append, List.nil_append] at e
  obtain ⟨rfl, e'⟩ := items_dec hi ho (Or.inl rfl) l l' hl hl' e
  exact ⟨rfl, e'⟩

theorem own_dec {k : Ptr} {t : FTy} (h : Dec (HasTy t)) (hn : NotNull (HasTy t)) : Dec (HasTy (.own k t)) := by
  have n1 : lit "Opt{None}" = lit "Opt{" ++ lit "None}" := by decide +kernel
  have n2 : lit "Box{null}" = lit "Box{" ++ lit "null}" := by decide +kernel
  have n3 : lit "Ref{null}" = lit "Ref{" ++ lit "null}" := by decide +kernel
  intro v w hv hw r r' _ _ e
  unfold HasTy at hv hw
  rcases hv with rfl | ⟨x, rfl, hx⟩ <;> rcases hw with rfl | ⟨y, rfl, hy⟩
  · exact ⟨rfl, by simpa using e⟩
  · exfalso
    cases k <;> simp only [render, n1, n2, n3, List.append_assoc, List.append_cancel_left_eq] at e <;>
      rw [lit_rbrace] at e
    · exact (hn y hy r' r).1 e.symm
    · exact (hn y hy r' r).2 e.symm
    · exact (hn y hy r' r).2 e.symm
  · exfalso
    cases k <;> simp only [render, n1, n2, n3, List.append_assoc, List.append_cancel_left_eq] at e <;>
      rw [lit_rbrace] at e
    · exact (hn x hx r r').1 e
    · exact (hn x hx r r').2 e
    · exact (hn x hx r r').2 e
  · have key : render x ++ 125#8 :: r = render y ++ 125#8 :: r' := by
      cases k <;>
      · simp only [render, List.append_assoc, List.append_cancel_left_eq, lit_rbrace, List.cons_append, List.nil_append] at e
        exact e
    obtain ⟨rfl, e'⟩ := h x y hx hy _ _ (Stop.cons (by simp)) (Stop.cons (by simp)) key
    exact ⟨rfl, by simpa using e'⟩

theorem rc_dec {t : FTy} (h : Dec (HasTy t)) : Dec (HasTy (.rc t)) := by
  have l1 : lit "Rc[" = [82#8, 99#8, 91#8] := by decide +kernel
  have l2 : lit "Rc{null}" = [82#8, 99#8, 123#8, 110#8, 117#8, 108#8, 108#8, 125#8] := by decide +kernel
  intro v w hv hw r r' _ _ e
  unfold HasTy at hv hw
  rcases hv with rfl | ⟨x, n, rfl, n1, n2, hx⟩ <;> rcases hw with rfl | ⟨y, m, rfl, m1, m2, hy⟩
  · exact ⟨rfl, by simpa using e⟩
  · simp [render, l1, l2] at e
  · simp [render, l1, l2] at e
  · simp only [render, List.append_assoc, List.append_cancel_left_eq] at e
    have hs : ∀ q : List Byte, ∀ z, (lit "]{" ++ q).head? = some z → ¬ isdigit z = true := by
      intro q z hz; rw [lit_brk] at hz; simp at hz; subst hz; decide
    obtain ⟨rfl, e1⟩ := decimal_cut ⟨by omega, n2⟩ ⟨by omega, m2⟩ (hs _) (hs _) e
    simp only [List.append_cancel_left_eq, lit_rbrace, List.cons_append, List.nil_append] at e1
    obtain ⟨rfl, e2⟩ := h x y hx hy _ _ (Stop.cons (by simp)) (Stop.cons (by simp)) e1
    exact ⟨rfl, by simpa using e2⟩

theorem arc_dec {t : FTy} (h : Dec (HasTy t)) : Dec (HasTy (.arc t)) := by
  have l1 : lit "Arc[" = [65#8, 114#8, 99#8, 91#8] := by decide +kernel
  have l2 : lit "Arc{null}" = [65#8, 114#8, 99#8, 123#8, 110#8, 117#8, 108#8, 108#8, 125#8] := by decide +kernel
  intro v w hv hw r r' _ _ e
  unfold HasTy at hv hw
  rcases hv with rfl | ⟨x, n, rfl, n1, n2, hx⟩ <;> rcases hw with rfl | ⟨y, m, rfl, m1, m2, hy⟩
  · exact ⟨rfl, by simpa using e⟩
  · simp [render, l1, l2] at e
  · simp [render, l1, l2] at e
  · simp only [render, List.append_assoc, List.append_cancel_left_eq] at e
    have hs : ∀ q : List Byte, ∀ z, (lit "]{" ++ q).head? = some z → ¬ isdigit z = true := by
      intro q z hz; rw [lit_brk] at hz; simp at hz; subst hz; decide
    obtain ⟨rfl, e1⟩ := decimal_cut ⟨by omega, n2⟩ ⟨by omega, m2⟩ (hs _) (hs _) e
    simp only [List.append_cancel_left_eq, lit_rbrace, List.cons_append, List.nil_append] at e1
    obtain ⟨rfl, e2⟩ := h x y hx hy _ _ (Stop.cons (by simp)) (Stop.cons (by simp)) e1
    exact ⟨rfl, by simpa using e2⟩

/-- The name of an enumerator. -/
theorem enum_text {cases : List (List Byte × Int)} (hv : (cases.map Prod.snd).Nodup) {n : List Byte} {x : Int} (h : (n, x) ∈ cases) :
    ((cases.filter (fun c => c.2 = x)).map Prod.fst).flatten = n := by
  induction cases with
  | nil => cases h
  | cons c cs ih =>
    rw [List.map_cons, List.nodup_cons] at hv
    rcases List.mem_cons.mp h with rfl | h
    · rw [List.filter_cons_of_pos (by simp)]
      have : cs.filter (fun c => c.2 = x) = [] := by
        rw [List.filter_eq_nil_iff]
        intro d hd hx
        simp at hx
        exact hv.1 (List.mem_map.mpr ⟨d, hd, hx⟩)
      simp [this]
    · rw [List.filter_cons_of_neg, ih hv.2 h]
      intro hx
      simp at hx
      exact hv.1 (List.mem_map.mpr ⟨_, h, hx.symm⟩)

theorem enum_dec {name : List Byte} {cases : List (List Byte × Int)} (h1 : ∀ c ∈ cases, Word c.1) (h2 : (cases.map Prod.fst).Nodup)
    (h3 : (cases.map Prod.snd).Nodup) : Dec (HasTy (.enum name cases)) := by
  intro v w hv hw r r' hr hr' e
  unfold HasTy at hv hw
  obtain ⟨n, x, rfl, hx⟩ := hv
  obtain ⟨m, y, rfl, hy⟩ := hw
  simp only [render, enum_text h3 hx, enum_text h3 hy, List.append_assoc, List.append_cancel_left_eq] at e
  have stop : ∀ {r : List Byte}, Stop r → ∀ b, r.head? = some b → ¬ b ∉ lit " ,[]{}" := by
    intro r hr b hb
    rw [lit_word]
    rcases hr b hb with rfl | rfl | rfl | rfl <;> decide
  obtain ⟨rfl, e'⟩ := cut (p := fun b => b ∉ lit " ,[]{}") (h1 _ hx).2 (h1 _ hy).2 (stop hr) (stop hr') e
  have : x = y := by
    have := List.inj_on_of_nodup_map h2 hx hy rfl
    exact congrArg Prod.snd this
  exact ⟨by rw [this], e'⟩

mutual

theorem dec : ∀ (t : FTy), t.OK → Dec (HasTy t)
  | .void, _ => by
    intro v w hv hw r r' _ _ e
    unfold HasTy at hv hw
    subst hv; subst hw
    exact ⟨rfl, by simpa using e⟩
  | .bool, _ => by
    have l1 : lit "true" = [116#8, 114#8, 117#8, 101#8] := by decide +kernel
    have l2 : lit "false" = [102#8, 97#8, 108#8, 115#8, 101#8] := by decide +kernel
    intro v w hv hw r r' _ _ e
    unfold HasTy at hv hw
    obtain ⟨a, rfl⟩ := hv
    obtain ⟨b, rfl⟩ := hw
    cases a <;> cases b <;> simp [render, l1, l2] at e ⊢ <;> exact e
  | .int, _ => ints_dec
  | .char, _ => by
    intro v w hv hw r r' _ _ e
    unfold HasTy at hv hw
    obtain ⟨a, rfl⟩ := hv
    obtain ⟨b, rfl⟩ := hw
    simp only [render, List.cons_append, List.nil_append, List.cons.injEq] at e
    exact ⟨by rw [e.1], e.2⟩
  | .enum name cases, h => by unfold FTy.OK at h; exact enum_dec h.2.1 h.2.2.1 h.2.2.2
  | .seq k t, h => by unfold FTy.OK at h; exact seq_dec (dec t h.1) (opens h.1 h.2)
  | .map k t, h => by unfold FTy.OK at h; exact map_dec (dec k h.1) (dec t h.2)
  | .own k t, h => by unfold FTy.OK at h; exact own_dec (dec t h) (notNull h)
  | .rc t, h => by unfold FTy.OK at h; exact rc_dec (dec t h)
  | .arc t, h => by unfold FTy.OK at h; exact arc_dec (dec t h)
  | .pair a b, h => by
    unfold FTy.OK at h
    have ha := dec a h.1
    have hb := dec b h.2
    intro v w hv hw r r' _ _ e
    unfold HasTy at hv hw
    obtain ⟨x, y, rfl, hx, hy⟩ := hv
    obtain ⟨x', y', rfl, hx', hy'⟩ := hw
    simp only [render, List.append_assoc, List.append_cancel_left_eq] at e
    have hs : ∀ q, Stop (lit ", " ++ q) := fun q => by rw [lit_sep]; exact Stop.cons (by simp)
    obtain ⟨rfl, e1⟩ := ha x x' hx hx' _ _ (hs _) (hs _) e
    simp only [List.append_cancel_left_eq, lit_rbrace, List.cons_append, List.nil_append] at e1
    obtain ⟨rfl, e2⟩ := hb y y' hy hy' _ _ (Stop.cons (by simp)) (Stop.cons (by simp)) e1
    exact ⟨rfl, by simpa using e2⟩
  | .tuple ts, h => by
    unfold FTy.OK at h
    have hd := decAll ts h
    intro v w hv hw r r' _ _ e
    unfold HasTy at hv hw
    obtain ⟨l, rfl, hl⟩ := hv
    obtain ⟨l', rfl, hl'⟩ := hw
    simp only [render, List.append_assoc, List.append_cancel_left_eq, lit_rbrace, List.cons_append, List.nil_append] at e
    obtain ⟨rfl, e'⟩ := (hd _ (Or.inr rfl) l l' hl hl' r r').2 e
    exact ⟨rfl, e'⟩
  | .record name ts, h => by
    unfold FTy.OK at h
    have hd := decAll ts h.2
    intro v w hv hw r r' _ _ e
    unfold HasTy at hv hw
    obtain ⟨l, rfl, hl⟩ := hv
    obtain ⟨l', rfl, hl'⟩ := hw
    simp only [render, List.append_assoc, List.append_cancel_left_eq, lit_rbrace, List.cons_append, List.nil_append] at e
    obtain ⟨rfl, e'⟩ := (hd _ (Or.inr rfl) l l' hl hl' r r').2 e
    exact ⟨rfl, e'⟩
  | .field name t, h => by
    unfold FTy.OK at h
    have hd := dec t h.2
    intro v w hv hw r r' hr hr' e
    unfold HasTy at hv hw
    obtain ⟨x, rfl, hx⟩ := hv
    obtain ⟨y, rfl, hy⟩ := hw
    simp only [render, List.append_assoc, List.append_cancel_left_eq] at e
    obtain ⟨rfl, e'⟩ := hd x y hx hy r r' hr hr' e
    exact ⟨rfl, e'⟩
  | .named name t, h => by unfold FTy.OK at h; exact named_dec (dec t h.2)
  | .variant ts, h => by
    unfold FTy.OK at h
    have hd := decOne ts h.1 h.2.1 h.2.2
    intro v w hv hw r r' _ _ e
    unfold HasTy at hv hw
    obtain ⟨x, rfl, hx⟩ := hv
    obtain ⟨y, rfl, hy⟩ := hw
    simp only [render, List.append_assoc, List.append_cancel_left_eq, lit_rbrace, List.cons_append, List.nil_append] at e
    obtain ⟨rfl, e'⟩ := hd x y hx hy _ _ (Stop.cons (by simp)) (Stop.cons (by simp)) e
    exact ⟨rfl, by simpa using e'⟩
  | .vecI s n, h => by
    intro v w hv hw r r' _ _ e
    unfold HasTy at hv hw
    obtain ⟨l, rfl, hn, hl⟩ := hv
    obtain ⟨l', rfl, hn', hl'⟩ := hw
    simp only [render, List.append_assoc, hn, hn', List.append_cancel_left_eq, lit_rbrace, List.cons_append, List.nil_append] at e
    have hi : ∀ x, (∃ k, x = Val.int k ∧ Whole64 k) → HasTy .int x := fun x hx => by unfold HasTy; exact hx
    obtain ⟨rfl, e'⟩ := items_dec ints_dec (opens (t := .int) (by unfold FTy.OK; trivial) (by intro h; cases h)) (Or.inr rfl) l l'
      (fun x hx => hi x (hl x hx)) (fun x hx => hi x (hl' x hx)) e
    exact ⟨rfl, e'⟩

theorem decAll : ∀ (ts : List FTy), OKAll ts → DecAll (HasAll ts)
  | [], _ => decAll_nil
  | t :: ts, h => by unfold OKAll at h; exact decAll_cons (dec t h.1) (decAll ts h.2)

theorem decOne : ∀ (ts : List FTy), OKAll ts → (∀ t ∈ ts, t.alt ≠ none) → (ts.map FTy.alt).Nodup → Dec (HasOne ts)
  | [], _, _, _ => by intro v w hv; unfold HasOne at hv; exact hv.elim
  | t :: ts, h, ha, hn => by
    have h' := h
    unfold OKAll at h'
    rw [List.map_cons] at hn
    exact hasOne_cons (dec t h'.1) (decOne ts h'.2 (fun k hk => ha k (by simp [hk])) (List.nodup_cons.mp hn).2) ha h
      (by rw [List.map_cons]; exact hn)

end

mutual

/-- Values of such a type are as `format` expects them. -/
theorem valid : ∀ (t : FTy), t.OK → ∀ v, HasTy t v → Every ValidPart v ∧ Every CountedPart v
  | .void, _, v, hv => by unfold HasTy at hv; subst hv; simp [Every, ValidPart, CountedPart]
  | .bool, _, v, hv => by unfold HasTy at hv; obtain ⟨b, rfl⟩ := hv; simp [Every, ValidPart, CountedPart]
  | .int, _, v, hv => by unfold HasTy at hv; obtain ⟨n, rfl, hn⟩ := hv; exact ⟨by unfold Every ValidPart; exact hn, by simp [Every, CountedPart]⟩
  | .char, _, v, hv => by unfold HasTy at hv; obtain ⟨b, rfl⟩ := hv; simp [Every, ValidPart, CountedPart]
  | .enum name cases, _, v, hv => by unfold HasTy at hv; obtain ⟨n, x, rfl, _⟩ := hv; simp [Every, ValidPart, CountedPart]
  | .seq k t, h, v, hv => by
    unfold FTy.OK at h
    have ih := valid t h.1
    unfold HasTy at hv; obtain ⟨l, rfl, hl⟩ := hv
    simp only [Every, ValidPart, CountedPart, true_and]
    exact ⟨EveryOf_iff.mpr fun x hx => (ih x (hl x hx)).1, EveryOf_iff.mpr fun x hx => (ih x (hl x hx)).2⟩
  | .map k t, h, v, hv => by
    unfold FTy.OK at h
    have ih := valid k h.1
    have ih' := valid t h.2
    unfold HasTy at hv; obtain ⟨l, rfl, hl⟩ := hv
    simp only [Every, ValidPart, CountedPart, true_and]
    refine ⟨EveryOf_iff.mpr fun x hx => ?_, EveryOf_iff.mpr fun x hx => ?_⟩
    · obtain ⟨a, b, rfl, ha, hb⟩ := hl x hx
      simp only [Every, ValidPart, true_and]
      exact ⟨(ih a ha).1, (ih' b hb).1⟩
    · obtain ⟨a, b, rfl, ha, hb⟩ := hl x hx
      simp only [Every, CountedPart, true_and]
      exact ⟨(ih a ha).2, (ih' b hb).2⟩
  | .own k t, h, v, hv => by
    unfold FTy.OK at h
    have ih := valid t h
    unfold HasTy at hv
    rcases hv with rfl | ⟨x, rfl, hx⟩
    · simp [Every, ValidPart, CountedPart]
    · simp only [Every, ValidPart, CountedPart, true_and]; exact ih x hx
  | .rc t, h, v, hv => by
    unfold FTy.OK at h
    have ih := valid t h
    unfold HasTy at hv
    rcases hv with rfl | ⟨x, n, rfl, h1, h2, hx⟩
    · simp [Every, ValidPart, CountedPart]
    · simp only [Every, ValidPart, CountedPart, true_and]; exact ⟨⟨⟨h1, h2⟩, (ih x hx).1⟩, (ih x hx).2⟩
  | .arc t, h, v, hv => by
    unfold FTy.OK at h
    have ih := valid t h
    unfold HasTy at hv
    rcases hv with rfl | ⟨x, n, rfl, h1, h2, hx⟩
    · simp [Every, ValidPart, CountedPart]
    · simp only [Every, ValidPart, CountedPart, true_and]; exact ⟨⟨⟨h1, h2⟩, (ih x hx).1⟩, (ih x hx).2⟩
  | .pair a b, h, v, hv => by
    unfold FTy.OK at h
    have ih := valid a h.1
    have ih' := valid b h.2
    unfold HasTy at hv; obtain ⟨x, y, rfl, hx, hy⟩ := hv
    simp only [Every, ValidPart, CountedPart, true_and]
    exact ⟨⟨(ih x hx).1, (ih' y hy).1⟩, (ih x hx).2, (ih' y hy).2⟩
  | .tuple ts, h, v, hv => by
    unfold FTy.OK at h
    have ih := validAll ts h
    unfold HasTy at hv; obtain ⟨l, rfl, hl⟩ := hv
    simp only [Every, ValidPart, CountedPart, true_and]
    exact ih l hl
  | .record name ts, h, v, hv => by
    unfold FTy.OK at h
    have ih := validAll ts h.2
    unfold HasTy at hv; obtain ⟨l, rfl, hl⟩ := hv
    simp only [Every, ValidPart, CountedPart, true_and]
    exact ih l hl
  | .field name t, h, v, hv => by
    unfold FTy.OK at h
    have ih := valid t h.2
    unfold HasTy at hv; obtain ⟨x, rfl, hx⟩ := hv
    simp only [Every, ValidPart, CountedPart, true_and]
    exact ih x hx
  | .named name t, h, v, hv => by
    unfold FTy.OK at h
    have ih := valid t h.2
    unfold HasTy at hv; obtain ⟨x, rfl, hx⟩ := hv
    simp only [Every, ValidPart, CountedPart, true_and]
    exact ih x hx
  | .variant ts, h, v, hv => by
    unfold FTy.OK at h
    have ih := validOne ts h.1
    unfold HasTy at hv; obtain ⟨x, rfl, hx⟩ := hv
    simp only [Every, ValidPart, CountedPart, true_and]
    exact ih x hx
  | .vecI s n, h, v, hv => by
    unfold FTy.OK at h
    unfold HasTy at hv; obtain ⟨l, rfl, hn, hl⟩ := hv
    simp only [Every, ValidPart, CountedPart, true_and]
    refine ⟨⟨by omega, EveryOf_iff.mpr fun x hx => ?_⟩, EveryOf_iff.mpr fun x hx => ?_⟩
    · obtain ⟨k, rfl, hk⟩ := hl x hx
      unfold Every ValidPart; exact hk
    · obtain ⟨k, rfl, hk⟩ := hl x hx
      simp [Every, CountedPart]

theorem validAll : ∀ (ts : List FTy), OKAll ts → ∀ l, HasAll ts l → EveryOf ValidPart l ∧ EveryOf CountedPart l
  | [], _, l, hl => by unfold HasAll at hl; subst hl; simp [EveryOf]
  | t :: ts, h, l, hl => by
    unfold OKAll at h
    have ih := valid t h.1
    have ih' := validAll ts h.2
    unfold HasAll at hl
    obtain ⟨x, r, rfl, hx, hr⟩ := hl
    simp only [EveryOf]
    exact ⟨⟨(ih x hx).1, (ih' r hr).1⟩, (ih x hx).2, (ih' r hr).2⟩

theorem validOne : ∀ (ts : List FTy), OKAll ts → ∀ v, HasOne ts v → Every ValidPart v ∧ Every CountedPart v
  | [], _, v, hv => by unfold HasOne at hv; exact hv.elim
  | t :: ts, h, v, hv => by
    unfold OKAll at h
    have ih := valid t h.1
    have ih' := validOne ts h.2
    unfold HasOne at hv
    rcases hv with hv | hv
    · exact ih v hv
    · exact ih' v hv

end

end Rpp
