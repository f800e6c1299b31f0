import Verif.Spec.Typename
import Verif.Proof.Parse
import Verif.Proof.FormatText

/-!
# Names of types can be read back
-/

namespace Rpp.Typename

open Rpp Rpp.Fmt Rpp.Spec.Typename

/-! ## Printing -/

def printWords : List Word → List Byte
  | [] => []
  | .const :: ws => lit "const " ++ printWords ws
  | .volatile :: ws => lit "volatile " ++ printWords ws

def printSigns : List Sign → List Byte
  | [] => []
  | .star :: ss => lit "*" ++ printSigns ss
  | .amp :: ss => lit "&" ++ printSigns ss
  | .ampamp :: ss => lit "&&" ++ printSigns ss
  | .dim n :: ss => lit "[" ++ (digits 20 n ++ (lit "]" ++ printSigns ss))

mutual
def print : Flat → List Byte
  | .mk ws x ss => printWords ws ++ (printCore x ++ printSigns ss)
def printCore : Core → List Byte
  | .named n => n
  | .inst n args => n ++ (lit "<" ++ (printArgs args ++ lit ">"))
  | .func r args => lit "Function" ++ (lit "<" ++ (print r ++ (lit "(" ++ (printArgs args ++ lit ")>"))))
def printArgs : FArgs → List Byte
  | .nil => []
  | .ty f rest => print f ++ printTail rest
  | .num n rest => digits 20 n ++ printTail rest
def printTail : FArgs → List Byte
  | .nil => []
  | .ty f rest => lit ", " ++ (print f ++ printTail rest)
  | .num n rest => lit ", " ++ (digits 20 n ++ printTail rest)
end

theorem printWords_append (a b : List Word) : printWords (a ++ b) = printWords a ++ printWords b := by
  induction a with
  | nil => rfl
  | cons w a ih => cases w <;> simp [printWords, ih]

theorem printSigns_append (a b : List Sign) : printSigns (a ++ b) = printSigns a ++ printSigns b := by
  induction a with
  | nil => rfl
  | cons w a ih => cases w <;> simp [printSigns, ih]

theorem printWords_words (c v : Bool) : printWords (words c v) =
    if c && v then lit "const volatile " else if c then lit "const " else if v then lit "volatile " else [] := by
  cases c <;> cases v <;> decide +kernel

theorem print_front (c v : Bool) (f : Flat) : print (f.front (words c v)) = qualified c v (print f) := by
  obtain ⟨us, x, ss⟩ := f
  simp only [Flat.front, print, printWords_append, printWords_words, qualified]
  cases c <;> cases v <;> simp

theorem print_back (s : Sign) (f : Flat) : print (f.back s) = print f ++ printSigns [s] := by
  obtain ⟨us, x, ss⟩ := f
  simp [Flat.back, print, printSigns_append]

/-- The texts of the arguments. -/
def argTexts : FArgs → List (List Byte)
  | .nil => []
  | .ty f rest => print f :: argTexts rest
  | .num n rest => digits 20 n :: argTexts rest

theorem commas_tail (s : List Byte) (a : FArgs) : commas (s :: argTexts a) = s ++ printTail a := by
  match a with
  | .nil => simp [argTexts, commas, printTail]
  | .ty f r =>
    have := commas_tail (print f) r
    simp only [argTexts, printTail]
    rw [commas, this]
    · simp
    · simp
  | .num n r =>
    have := commas_tail (digits 20 n) r
    simp only [argTexts, printTail]
    rw [commas, this]
    · simp
    · simp

theorem commas_args (a : FArgs) : commas (argTexts a) = printArgs a := by
  cases a with
  | nil => rfl
  | ty f r => rw [argTexts, commas_tail, printArgs]
  | num n r => rw [argTexts, commas_tail, printArgs]

theorem qual_iff (t : Ty) : ((skel t).isConst || (skel t).isVol) = true ↔ Qualified t := by
  match t with
  | .named c v n => cases c <;> cases v <;> simp [skel, Meta.Ty.isConst, Meta.Ty.isVol, Qualified]
  | .inst c v n _ => cases c <;> cases v <;> simp [skel, Meta.Ty.isConst, Meta.Ty.isVol, Qualified]
  | .func c v n _ => cases c <;> cases v <;> simp [skel, Meta.Ty.isConst, Meta.Ty.isVol, Qualified]
  | .ptr c v n => cases c <;> cases v <;> simp [skel, Meta.Ty.isConst, Meta.Ty.isVol, Qualified]
  | .arr t n =>
    have := qual_iff t
    simpa [skel, Meta.Ty.isConst, Meta.Ty.isVol, Qualified] using this
  | .lref t => simp [skel, Meta.Ty.isConst, Meta.Ty.isVol, Qualified]
  | .rref t => simp [skel, Meta.Ty.isConst, Meta.Ty.isVol, Qualified]

mutual
/-- The name is what it says, if there is one. -/
theorem name_eq : (t : Ty) → (NoQualArray t → name t = some (print (says t))) ∧ (¬ NoQualArray t → name t = none)
  | .named c v n => by
    refine ⟨fun _ => ?_, fun h => absurd trivial h⟩
    have := print_front c v (.mk [] (.named n) [])
    simp only [Flat.front, List.append_nil] at this
    simp only [name, says, this]
    simp [print, printWords, printCore, printSigns]
  | .inst c v n args => by
    obtain ⟨h1, h2⟩ := names_eq args
    refine ⟨fun h => ?_, fun h => ?_⟩
    · have := print_front c v (.mk [] (.inst n (saysArgs args)) [])
      simp only [Flat.front, List.append_nil] at this
      simp only [name, says, this, h1 h]
      simp [print, printWords, printCore, printSigns, commas_args]
    · simp only [name, h2 h]
  | .func c v r args => by
    obtain ⟨h1, h2⟩ := names_eq args
    obtain ⟨h3, h4⟩ := name_eq r
    refine ⟨fun h => ?_, fun h => ?_⟩
    · have := print_front c v (.mk [] (.func (says r) (saysArgs args)) [])
      simp only [Flat.front, List.append_nil] at this
      simp only [name, says, this, h1 h.2, h3 h.1]
      have e : lit "Function<" = lit "Function" ++ lit "<" := by decide +kernel
      simp [print, printWords, printCore, printSigns, commas_args, e]
    · simp only [name]
      by_cases hr : NoQualArray r
      · rw [h3 hr, h2 fun h' => h ⟨hr, h'⟩]
      · rw [h4 hr]
  | .ptr c v t => by
    obtain ⟨h1, h2⟩ := name_eq t
    refine ⟨fun h => ?_, fun h => ?_⟩
    · simp only [name, says, print_front, print_back, h1 h, printSigns, List.append_nil]
    · simp only [name, h2 h]
  | .arr t n => by
    obtain ⟨h1, h2⟩ := name_eq t
    refine ⟨fun h => ?_, fun h => ?_⟩
    · have hq : ¬ ((skel t).isConst || (skel t).isVol) = true := fun hq => h.1 ((qual_iff t).mp hq)
      simp only [name, says, print_back, h1 h.2, printSigns, List.append_nil, if_neg hq]
      simp
    · simp only [name]
      by_cases hq : Qualified t
      · rw [if_pos ((qual_iff t).mpr hq)]
      · rw [if_neg fun h' => hq ((qual_iff t).mp h'), h2 fun h' => h ⟨hq, h'⟩]
  | .lref t => by
    obtain ⟨h1, h2⟩ := name_eq t
    refine ⟨fun h => ?_, fun h => ?_⟩
    · simp only [name, says, print_back, h1 h, printSigns, List.append_nil]
    · simp only [name, h2 h]
  | .rref t => by
    obtain ⟨h1, h2⟩ := name_eq t
    refine ⟨fun h => ?_, fun h => ?_⟩
    · simp only [name, says, print_back, h1 h, printSigns, List.append_nil]
    · simp only [name, h2 h]
theorem names_eq : (a : Args) → (NoQualArrays a → names a = some (argTexts (saysArgs a))) ∧ (¬ NoQualArrays a → names a = none)
  | .nil => ⟨fun _ => rfl, fun h => absurd trivial h⟩
  | .ty t rest => by
    obtain ⟨h1, h2⟩ := names_eq rest
    obtain ⟨h3, h4⟩ := name_eq t
    refine ⟨fun h => ?_, fun h => ?_⟩
    · simp only [names, saysArgs, argTexts, h1 h.2, h3 h.1]
    · simp only [names]
      by_cases hr : NoQualArray t
      · rw [h3 hr, h2 fun h' => h ⟨hr, h'⟩]
      · rw [h4 hr]
  | .num n rest => by
    obtain ⟨h1, h2⟩ := names_eq rest
    refine ⟨fun h => ?_, fun h => ?_⟩
    · simp only [names, saysArgs, argTexts, h1 h]
    · simp only [names, h2 h]
  | .alloc n rest => by
    obtain ⟨h1, h2⟩ := names_eq rest
    exact ⟨fun h => by simp only [names, saysArgs, h1 h], fun h => by simp only [names, h2 h]⟩
end

/-! ## Reading -/

/-- What comes after a name: nothing, or one of the given bytes. -/
def Starts (p : Byte → Prop) (r : List Byte) : Prop := ∀ b, r.head? = some b → p b

/-- A token ends where no byte of its kind follows. -/
theorem token {p : Byte → Prop} : ∀ {a b x y : List Byte}, (∀ c ∈ a, p c) → (∀ c ∈ b, p c) → Starts (fun c => ¬ p c) x →
    Starts (fun c => ¬ p c) y → a ++ x = b ++ y → a = b ∧ x = y
  | [], [], _, _, _, _, _, _, e => ⟨rfl, e⟩
  | [], c :: b, x, y, _, hb, hx, _, e => by
    simp only [List.nil_append] at e
    exact absurd (hb c (by simp)) (hx c (by rw [e]; rfl))
  | c :: a, [], x, y, ha, _, _, hy, e => by
    simp only [List.nil_append] at e
    exact absurd (ha c (by simp)) (hy c (by rw [← e]; rfl))
  | c :: a, d :: b, x, y, ha, hb, hx, hy, e => by
    simp only [List.cons_append, List.cons.injEq] at e
    obtain ⟨h1, h2⟩ := token (fun c h => ha c (by simp [h])) (fun c h => hb c (by simp [h])) hx hy e.2
    exact ⟨by rw [e.1, h1], h2⟩

/-- Bytes that end a name: comma, closing angle, parentheses. -/
def EndByte (b : Byte) : Prop := b = ch ',' ∨ b = ch '>' ∨ b = ch '(' ∨ b = ch ')'

/-- Bytes of signs. -/
def SignByte (b : Byte) : Prop := b = ch '*' ∨ b = ch '&' ∨ b = ch '['

theorem sp_facts : ¬ IdByte (ch ' ') ∧ ¬ IdByte (ch '<') ∧ ¬ IdByte (ch ']') := by
  unfold IdByte; decide +kernel

theorem end_not_id {b : Byte} (h : EndByte b ∨ SignByte b) : ¬ IdByte b := by
  unfold IdByte
  rcases h with (rfl | rfl | rfl | rfl) | (rfl | rfl | rfl) <;> decide +kernel

theorem end_not_sp {b : Byte} (h : EndByte b ∨ SignByte b) : b ≠ ch ' ' ∧ b ≠ ch '<' := by
  rcases h with (rfl | rfl | rfl | rfl) | (rfl | rfl | rfl) <;> decide +kernel

theorem end_not_sign {b : Byte} (h : EndByte b) : ¬ SignByte b := by
  unfold SignByte
  rcases h with rfl | rfl | rfl | rfl <;> decide +kernel

theorem digit_id {b : Byte} (h : isdigit b = true) : IdByte b ∧ (48 ≤ b.toNat ∧ b.toNat ≤ 57) := by
  have : ∀ b : Byte, isdigit b = true → IdByte b ∧ (48 ≤ b.toNat ∧ b.toNat ≤ 57) := by
    unfold IdByte; decide +kernel
  exact this b h

theorem digits_inj {n m : Nat} (hn : n < 2 ^ 64) (hm : m < 2 ^ 64) (h : digits 20 n = digits 20 m) : n = m := by
  rw [← digits_value 20 n (by omega) (by omega), h, digits_value 20 m (by omega) (by omega)]

/-- References come last. -/
def GoodSigns : List Sign → Prop
  | [] => True
  | .star :: ss => GoodSigns ss
  | .amp :: ss => ss = []
  | .ampamp :: ss => ss = []
  | .dim n :: ss => n < 2 ^ 64 ∧ GoodSigns ss

mutual
def GoodFlat : Flat → Prop
  | .mk _ x ss => GoodCore x ∧ GoodSigns ss
def GoodCore : Core → Prop
  | .named n => Ident n
  | .inst n args => Ident n ∧ n ≠ lit "Function" ∧ GoodFArgs args
  | .func r args => GoodFlat r ∧ GoodFArgs args
def GoodFArgs : FArgs → Prop
  | .nil => True
  | .ty f rest => GoodFlat f ∧ GoodFArgs rest
  | .num n rest => n < 2 ^ 64 ∧ GoodFArgs rest
end

theorem signs_start (ss : List Sign) {r : List Byte} (hr : Starts EndByte r) :
    Starts (fun b => EndByte b ∨ SignByte b) (printSigns ss ++ r) := by
  intro b hb
  cases ss with
  | nil => exact .inl (hr b (by simpa [printSigns] using hb))
  | cons s ss =>
    refine .inr ?_
    cases s <;> simp [printSigns, lit] at hb <;> subst hb <;> unfold SignByte <;> decide +kernel

theorem signs_inj : ∀ (ss ts : List Sign) {r q : List Byte}, GoodSigns ss → GoodSigns ts → Starts EndByte r → Starts EndByte q →
    printSigns ss ++ r = printSigns ts ++ q → ss = ts ∧ r = q := by
  have amp_end : ∀ {r : List Byte} {l : List Byte}, Starts EndByte r → r ≠ ch '&' :: l := by
    intro r l hr e
    exact end_not_sign (hr (ch '&') (by rw [e]; rfl)) (.inr (.inl rfl))
  have no_sign : ∀ {s : Sign} {ss : List Sign} {r q : List Byte}, Starts EndByte r → r ≠ printSigns (s :: ss) ++ q := by
    intro s ss r q hr e
    cases s <;>
    · refine end_not_sign (hr _ (by rw [e]; simp [printSigns, lit]; rfl)) ?_
      unfold SignByte; decide +kernel
  intro ss
  induction ss with
  | nil =>
    intro ts r q _ _ hr hq e
    cases ts with
    | nil => exact ⟨rfl, e⟩
    | cons t ts => exact absurd e (no_sign hr)
  | cons s ss ih =>
    intro ts r q hs ht hr hq e
    cases ts with
    | nil => exact absurd e.symm (no_sign hq)
    | cons t ts =>
      cases s with
      | star =>
        cases t with
        | star =>
          simp only [printSigns, List.append_assoc, List.append_cancel_left_eq] at e
          obtain ⟨h1, h2⟩ := ih ts hs ht hr hq e
          exact ⟨by rw [h1], h2⟩
        | amp => simp [printSigns, lit] at e; exact absurd e.1 (by decide +kernel)
        | ampamp => simp [printSigns, lit] at e; exact absurd e.1 (by decide +kernel)
        | dim n => simp [printSigns, lit] at e; exact absurd e.1 (by decide +kernel)
      | amp =>
        cases t with
        | star => simp [printSigns, lit] at e; exact absurd e.1 (by decide +kernel)
        | amp =>
          simp only [GoodSigns] at hs ht
          subst hs; subst ht
          simp only [printSigns, List.append_assoc, List.append_cancel_left_eq, List.nil_append] at e
          exact ⟨rfl, e⟩
        | ampamp =>
          simp only [GoodSigns] at hs ht
          subst hs; subst ht
          simp [printSigns, lit] at e
          exact absurd e (amp_end hr)
        | dim n => simp [printSigns, lit] at e; exact absurd e.1 (by decide +kernel)
      | ampamp =>
        cases t with
        | star => simp [printSigns, lit] at e; exact absurd e.1 (by decide +kernel)
        | amp =>
          simp only [GoodSigns] at hs ht
          subst hs; subst ht
          simp [printSigns, lit] at e
          exact absurd e.symm (amp_end hq)
        | ampamp =>
          simp only [GoodSigns] at hs ht
          subst hs; subst ht
          simp only [printSigns, List.append_assoc, List.append_cancel_left_eq, List.nil_append] at e
          exact ⟨rfl, e⟩
        | dim n => simp [printSigns, lit] at e; exact absurd e.1 (by decide +kernel)
      | dim n =>
        cases t with
        | star => simp [printSigns, lit] at e; exact absurd e.1 (by decide +kernel)
        | amp => simp [printSigns, lit] at e; exact absurd e.1 (by decide +kernel)
        | ampamp => simp [printSigns, lit] at e; exact absurd e.1 (by decide +kernel)
        | dim m =>
          simp only [printSigns, List.append_assoc, List.append_cancel_left_eq] at e
          have hb : ∀ l, Starts (fun c => ¬ isdigit c = true) (lit "]" ++ l) := by
            intro l b hb
            simp [lit] at hb
            subst hb
            decide +kernel
          obtain ⟨h1, h2⟩ := token (p := fun c => isdigit c = true) (digits_isdigit _ _) (digits_isdigit _ _) (hb _) (hb _) e
          rw [List.append_cancel_left_eq] at h2
          obtain ⟨h3, h4⟩ := ih ts hs.2 ht.2 hr hq h2
          exact ⟨by rw [h3, digits_inj hs.1 ht.1 h1], h4⟩

/-- The first identifier of a core. -/
def coreHead : Core → List Byte
  | .named n => n
  | .inst n _ => n
  | .func _ _ => lit "Function"

/-- The rest of a core. -/
def coreRest : Core → List Byte
  | .named _ => []
  | .inst _ args => lit "<" ++ (printArgs args ++ lit ">")
  | .func r args => lit "<" ++ (print r ++ (lit "(" ++ (printArgs args ++ lit ")>")))

theorem core_split (x : Core) : printCore x = coreHead x ++ coreRest x := by
  cases x <;> simp [printCore, coreHead, coreRest]

theorem function_ident : Ident (lit "Function") := by
  refine ⟨by unfold IdByte; decide +kernel, _, _, rfl, by decide +kernel⟩

theorem coreHead_ident {x : Core} (h : GoodCore x) : Ident (coreHead x) := by
  cases x with
  | named n => exact h
  | inst n a => exact h.1
  | func r a => exact function_ident

/-- After the identifier there is no space and no byte of an identifier. -/
theorem coreRest_starts (x : Core) {r : List Byte} (hr : Starts (fun b => EndByte b ∨ SignByte b) r) :
    Starts (fun b => b = ch '<' ∨ EndByte b ∨ SignByte b) (coreRest x ++ r) := by
  intro b hb
  cases x with
  | named n => exact .inr (hr b (by simpa [coreRest] using hb))
  | inst n a => simp [coreRest, lit] at hb; exact .inl hb.symm
  | func n a => simp [coreRest, lit] at hb; exact .inl hb.symm

/-- Words in front and the core behind them. -/
theorem words_inj : ∀ (ws us : List Word) {x y : Core} {r q : List Byte}, GoodCore x → GoodCore y →
    Starts (fun b => EndByte b ∨ SignByte b) r → Starts (fun b => EndByte b ∨ SignByte b) q →
    printWords ws ++ (printCore x ++ r) = printWords us ++ (printCore y ++ q) →
    ws = us ∧ coreHead x = coreHead y ∧ coreRest x ++ r = coreRest y ++ q := by
  have spid : ∀ l, Starts (fun c => ¬ IdByte c) (lit " " ++ l) := by
    intro l b hb
    simp [lit] at hb
    subst hb
    exact sp_facts.1
  have restid : ∀ {x : Core} {r}, Starts (fun b => EndByte b ∨ SignByte b) r → Starts (fun c => ¬ IdByte c) (coreRest x ++ r) := by
    intro x r hr b hb
    rcases coreRest_starts x hr b hb with h | h
    · subst h; exact sp_facts.2.1
    · exact end_not_id h
  have restsp : ∀ {x : Core} {r l}, Starts (fun b => EndByte b ∨ SignByte b) r → coreRest x ++ r ≠ lit " " ++ l := by
    intro x r l hr e
    rcases coreRest_starts x hr (ch ' ') (by rw [e]; rfl) with h | h
    · exact absurd h (by decide +kernel)
    · exact (end_not_sp h).1 rfl
  have wsplit : ∀ (w : Word) (ws : List Word), ∃ k, (∀ c ∈ k, IdByte c) ∧ (∀ l, printWords (w :: ws) ++ l = k ++ (lit " " ++ (printWords ws ++ l))) ∧
      (∀ w', k = (match w' with | .const => lit "const" | .volatile => lit "volatile") → w' = w) ∧
      k = (match w with | .const => lit "const" | .volatile => lit "volatile") := by
    intro w ws
    cases w with
    | const =>
      refine ⟨lit "const", by unfold IdByte; decide +kernel, fun l => ?_, fun w' h => ?_, rfl⟩
      · have e : lit "const " = lit "const" ++ lit " " := by decide +kernel
        simp only [printWords, e, List.append_assoc]
      · cases w' with
        | const => rfl
        | volatile => exact absurd h (by decide +kernel)
    | volatile =>
      refine ⟨lit "volatile", by unfold IdByte; decide +kernel, fun l => ?_, fun w' h => ?_, rfl⟩
      · have e : lit "volatile " = lit "volatile" ++ lit " " := by decide +kernel
        simp only [printWords, e, List.append_assoc]
      · cases w' with
        | volatile => rfl
        | const => exact absurd h (by decide +kernel)
  intro ws
  induction ws with
  | nil =>
    intro us x y r q hx hy hr hq e
    rw [core_split x, List.append_assoc] at e
    cases us with
    | nil =>
      rw [core_split y, List.append_assoc] at e
      simp only [printWords, List.nil_append] at e
      obtain ⟨h1, h2⟩ := token (coreHead_ident hx).1 (coreHead_ident hy).1 (restid hr) (restid hq) e
      exact ⟨rfl, h1, h2⟩
    | cons u us =>
      obtain ⟨k, hk, hs, _⟩ := wsplit u us
      rw [hs] at e
      simp only [printWords, List.nil_append] at e
      obtain ⟨h1, h2⟩ := token (coreHead_ident hx).1 hk (restid hr) (spid _) e
      exact absurd h2 (restsp hr)
  | cons w ws ih =>
    intro us x y r q hx hy hr hq e
    obtain ⟨k, hk, hs, hw, hw'⟩ := wsplit w ws
    rw [hs] at e
    cases us with
    | nil =>
      rw [core_split y, List.append_assoc] at e
      simp only [printWords, List.nil_append] at e
      obtain ⟨h1, h2⟩ := token hk (coreHead_ident hy).1 (spid _) (restid hq) e
      exact absurd h2.symm (restsp hq)
    | cons u us =>
      obtain ⟨k', hk', hs', hu, hu'⟩ := wsplit u us
      rw [hs'] at e
      obtain ⟨h1, h2⟩ := token hk hk' (spid _) (spid _) e
      rw [List.append_cancel_left_eq] at h2
      obtain ⟨h3, h4⟩ := ih us hx hy hr hq h2
      exact ⟨by rw [h3, hw u (h1.trans hu')], h4⟩

/-- Bytes that end a list of arguments. -/
def CloseByte (b : Byte) : Prop := b = ch '>' ∨ b = ch ')'

theorem tail_starts (a : FArgs) {r : List Byte} (hr : Starts CloseByte r) :
    Starts EndByte (printTail a ++ r) := by
  intro b hb
  cases a with
  | nil =>
    rcases hr b (by simpa [printTail] using hb) with h | h
    · exact .inr (.inl h)
    · exact .inr (.inr (.inr h))
  | ty f a => simp [printTail, lit] at hb; exact .inl hb.symm
  | num n a => simp [printTail, lit] at hb; exact .inl hb.symm

/-- A name begins with a byte of an identifier that is not a digit. -/
theorem print_head {f : Flat} (h : GoodFlat f) : ∃ b l, print f = b :: l ∧ IdByte b ∧ ¬ (48 ≤ b.toNat ∧ b.toNat ≤ 57) := by
  obtain ⟨ws, x, ss⟩ := f
  cases ws with
  | nil =>
    obtain ⟨h1, b, l, h2, h3⟩ := coreHead_ident h.1
    refine ⟨b, l ++ (coreRest x ++ printSigns ss), ?_, h1 b (by rw [h2]; simp), h3⟩
    simp [print, printWords, core_split, h2]
  | cons w ws =>
    cases w with
    | const => exact ⟨ch 'c', _, by simp [print, printWords, lit]; rfl, by unfold IdByte; decide +kernel, by decide +kernel⟩
    | volatile => exact ⟨ch 'v', _, by simp [print, printWords, lit]; rfl, by unfold IdByte; decide +kernel, by decide +kernel⟩

theorem digits_head (n : Nat) : ∃ b l, digits 20 n = b :: l ∧ IdByte b ∧ (48 ≤ b.toNat ∧ b.toNat ≤ 57) := by
  have h := digits_isdigit 20 n
  have h0 := digits_ne_nil 20 n (by omega)
  cases e : digits 20 n with
  | nil => exact absurd e h0
  | cons b l => exact ⟨b, l, rfl, digit_id (h b (by rw [e]; simp))⟩

theorem close_not_id {b : Byte} (h : CloseByte b) : ¬ IdByte b := by
  unfold IdByte
  rcases h with rfl | rfl <;> decide +kernel

theorem close_end {r : List Byte} (h : Starts CloseByte r) : Starts EndByte r := by
  intro b hb
  rcases h b hb with h | h
  · exact .inr (.inl h)
  · exact .inr (.inr (.inr h))

theorem lit_start {p : Byte → Prop} {c : Char} (l : List Byte) (h : p (ch c)) : Starts p (lit (String.singleton c) ++ l) := by
  intro b hb
  have e : (lit (String.singleton c) ++ l).head? = some (ch c) := by simp [lit]
  rw [e] at hb
  cases hb
  exact h

theorem comma_start {p : Byte → Prop} (l : List Byte) (h : p (ch ',')) : Starts p (lit ", " ++ l) := by
  intro b hb
  have e : (lit ", " ++ l).head? = some (ch ',') := by simp [lit]
  rw [e] at hb
  cases hb
  exact h

theorem comma_not_close : ¬ CloseByte (ch ',') := by
  unfold CloseByte; decide +kernel

theorem digits_token {n m : Nat} {r q : List Byte} (hn : n < 2 ^ 64) (hm : m < 2 ^ 64) (hr : Starts EndByte r)
    (hq : Starts EndByte q) (e : digits 20 n ++ r = digits 20 m ++ q) : n = m ∧ r = q := by
  have h : ∀ {r}, Starts EndByte r → Starts (fun c => ¬ isdigit c = true) r :=
    fun hr b hb hd => end_not_id (.inl (hr b hb)) (digit_id hd).1
  obtain ⟨h1, h2⟩ := token (p := fun c => isdigit c = true) (digits_isdigit _ _) (digits_isdigit _ _) (h hr) (h hq) e
  exact ⟨digits_inj hn hm h1, h2⟩

theorem digits_ne_print {n : Nat} {f : Flat} (hf : GoodFlat f) {r q : List Byte} : digits 20 n ++ r ≠ print f ++ q := by
  intro e
  obtain ⟨b, l, h1, _, h2⟩ := digits_head n
  obtain ⟨b', l', h3, _, h4⟩ := print_head hf
  rw [h1, h3] at e
  simp only [List.cons_append, List.cons.injEq] at e
  rw [e.1] at h2
  exact h4 h2

theorem close_ne_print {f : Flat} (hf : GoodFlat f) {r q : List Byte} (hr : Starts CloseByte r) : r ≠ print f ++ q := by
  intro e
  obtain ⟨b, l, h1, h2, _⟩ := print_head hf
  exact close_not_id (hr b (by rw [e, h1]; rfl)) h2

theorem close_ne_digits {n : Nat} {r q : List Byte} (hr : Starts CloseByte r) : r ≠ digits 20 n ++ q := by
  intro e
  obtain ⟨b, l, h1, h2, _⟩ := digits_head n
  exact close_not_id (hr b (by rw [e, h1]; rfl)) h2

theorem close_ne_comma {r q : List Byte} (hr : Starts CloseByte r) : r ≠ lit ", " ++ q :=
  fun e => comma_not_close (hr (ch ',') (by rw [e]; simp [lit]))

theorem end_ne_angle {r q : List Byte} (hr : Starts (fun b => EndByte b ∨ SignByte b) r) : r ≠ lit "<" ++ q :=
  fun e => (end_not_sp (hr (ch '<') (by rw [e]; simp [lit]))).2 rfl

theorem close_angle (l : List Byte) : Starts CloseByte (lit ">" ++ l) := by
  intro b hb
  simp [lit] at hb
  exact .inl hb.symm

theorem close_paren (l : List Byte) : Starts CloseByte (lit ")>" ++ l) := by
  intro b hb
  simp [lit] at hb
  exact .inr hb.symm

theorem end_paren (l : List Byte) : Starts EndByte (lit "(" ++ l) := by
  intro b hb
  simp [lit] at hb
  exact .inr (.inr (.inl hb.symm))

mutual
/-- A name can be taken apart in only one way. -/
theorem flat_inj : (f g : Flat) → ∀ {r q : List Byte}, GoodFlat f → GoodFlat g → Starts EndByte r → Starts EndByte q →
    print f ++ r = print g ++ q → f = g ∧ r = q
  | .mk ws x ss, .mk us y ts, r, q, hf, hg, hr, hq, e => by
    simp only [print, List.append_assoc] at e
    obtain ⟨h1, h2, h3⟩ := words_inj ws us hf.1 hg.1 (signs_start ss hr) (signs_start ts hq) e
    obtain ⟨h4, h5⟩ := core_inj x y hf.1 hg.1 (signs_start ss hr) (signs_start ts hq) h2 h3
    obtain ⟨h6, h7⟩ := signs_inj ss ts hf.2 hg.2 hr hq h5
    exact ⟨by rw [h1, h4, h6], h7⟩
theorem core_inj : (x y : Core) → ∀ {r q : List Byte}, GoodCore x → GoodCore y → Starts (fun b => EndByte b ∨ SignByte b) r →
    Starts (fun b => EndByte b ∨ SignByte b) q → coreHead x = coreHead y → coreRest x ++ r = coreRest y ++ q → x = y ∧ r = q
  | .named n, .named m, r, q, _, _, _, _, h, e => ⟨by rw [show n = m from h], by simpa [coreRest] using e⟩
  | .named n, .inst m b, r, q, _, _, hr, _, _, e => by
    simp only [coreRest, List.nil_append, List.append_assoc] at e
    exact absurd e (end_ne_angle hr)
  | .named n, .func m b, r, q, _, _, hr, _, _, e => by
    simp only [coreRest, List.nil_append, List.append_assoc] at e
    exact absurd e (end_ne_angle hr)
  | .inst n a, .named m, r, q, _, _, _, hq, _, e => by
    simp only [coreRest, List.nil_append, List.append_assoc] at e
    exact absurd e.symm (end_ne_angle hq)
  | .inst n a, .inst m b, r, q, hx, hy, _, _, h, e => by
    simp only [coreRest, List.append_assoc, List.append_cancel_left_eq] at e
    obtain ⟨h1, h2⟩ := args_inj a b hx.2.2 hy.2.2 (close_angle _) (close_angle _) e
    rw [List.append_cancel_left_eq] at h2
    exact ⟨by rw [show n = m from h, h1], h2⟩
  | .inst n a, .func m b, r, q, hx, _, _, _, h, e => absurd h hx.2.1
  | .func n a, .named m, r, q, _, _, _, hq, _, e => by
    simp only [coreRest, List.nil_append, List.append_assoc] at e
    exact absurd e.symm (end_ne_angle hq)
  | .func n a, .inst m b, r, q, _, hy, _, _, h, e => absurd h.symm hy.2.1
  | .func n a, .func m b, r, q, hx, hy, _, _, _, e => by
    simp only [coreRest, List.append_assoc, List.append_cancel_left_eq] at e
    obtain ⟨h1, h2⟩ := flat_inj n m hx.1 hy.1 (end_paren _) (end_paren _) e
    rw [List.append_cancel_left_eq] at h2
    obtain ⟨h3, h4⟩ := args_inj a b hx.2 hy.2 (close_paren _) (close_paren _) h2
    rw [List.append_cancel_left_eq] at h4
    exact ⟨by rw [h1, h3], h4⟩
theorem args_inj : (a b : FArgs) → ∀ {r q : List Byte}, GoodFArgs a → GoodFArgs b → Starts CloseByte r → Starts CloseByte q →
    printArgs a ++ r = printArgs b ++ q → a = b ∧ r = q
  | .nil, .nil, r, q, _, _, _, _, e => ⟨rfl, e⟩
  | .nil, .ty g b, r, q, _, hb, hr, _, e => by
    simp only [printArgs, List.nil_append, List.append_assoc] at e
    exact absurd e (close_ne_print hb.1 hr)
  | .nil, .num m b, r, q, _, hb, hr, _, e => by
    simp only [printArgs, List.nil_append, List.append_assoc] at e
    exact absurd e (close_ne_digits hr)
  | .ty f a, .nil, r, q, ha, _, _, hq, e => by
    simp only [printArgs, List.nil_append, List.append_assoc] at e
    exact absurd e.symm (close_ne_print ha.1 hq)
  | .ty f a, .ty g b, r, q, ha, hb, hr, hq, e => by
    simp only [printArgs, List.append_assoc] at e
    obtain ⟨h1, h2⟩ := flat_inj f g ha.1 hb.1 (tail_starts a hr) (tail_starts b hq) e
    obtain ⟨h3, h4⟩ := tail_inj a b ha.2 hb.2 hr hq h2
    exact ⟨by rw [h1, h3], h4⟩
  | .ty f a, .num m b, r, q, ha, _, _, _, e => by
    simp only [printArgs, List.append_assoc] at e
    exact absurd e.symm (digits_ne_print ha.1)
  | .num n a, .nil, r, q, ha, _, _, hq, e => by
    simp only [printArgs, List.nil_append, List.append_assoc] at e
    exact absurd e.symm (close_ne_digits hq)
  | .num n a, .ty g b, r, q, _, hb, _, _, e => by
    simp only [printArgs, List.append_assoc] at e
    exact absurd e (digits_ne_print hb.1)
  | .num n a, .num m b, r, q, ha, hb, hr, hq, e => by
    simp only [printArgs, List.append_assoc] at e
    obtain ⟨h1, h2⟩ := digits_token ha.1 hb.1 (tail_starts a hr) (tail_starts b hq) e
    obtain ⟨h3, h4⟩ := tail_inj a b ha.2 hb.2 hr hq h2
    exact ⟨by rw [h1, h3], h4⟩
theorem tail_inj : (a b : FArgs) → ∀ {r q : List Byte}, GoodFArgs a → GoodFArgs b → Starts CloseByte r → Starts CloseByte q →
    printTail a ++ r = printTail b ++ q → a = b ∧ r = q
  | .nil, .nil, r, q, _, _, _, _, e => ⟨rfl, e⟩
  | .nil, .ty g b, r, q, _, hb, hr, _, e => by
    simp only [printTail, List.nil_append, List.append_assoc] at e
    exact absurd e (close_ne_comma hr)
  | .nil, .num m b, r, q, _, hb, hr, _, e => by
    simp only [printTail, List.nil_append, List.append_assoc] at e
    exact absurd e (close_ne_comma hr)
  | .ty f a, .nil, r, q, ha, _, _, hq, e => by
    simp only [printTail, List.nil_append, List.append_assoc] at e
    exact absurd e.symm (close_ne_comma hq)
  | .ty f a, .ty g b, r, q, ha, hb, hr, hq, e => by
    simp only [printTail, List.append_assoc, List.append_cancel_left_eq] at e
    obtain ⟨h1, h2⟩ := flat_inj f g ha.1 hb.1 (tail_starts a hr) (tail_starts b hq) e
    obtain ⟨h3, h4⟩ := tail_inj a b ha.2 hb.2 hr hq h2
    exact ⟨by rw [h1, h3], h4⟩
  | .ty f a, .num m b, r, q, ha, _, _, _, e => by
    simp only [printTail, List.append_assoc, List.append_cancel_left_eq] at e
    exact absurd e.symm (digits_ne_print ha.1)
  | .num n a, .nil, r, q, ha, _, _, hq, e => by
    simp only [printTail, List.nil_append, List.append_assoc] at e
    exact absurd e.symm (close_ne_comma hq)
  | .num n a, .ty g b, r, q, _, hb, _, _, e => by
    simp only [printTail, List.append_assoc, List.append_cancel_left_eq] at e
    exact absurd e (digits_ne_print hb.1)
  | .num n a, .num m b, r, q, ha, hb, hr, hq, e => by
    simp only [printTail, List.append_assoc, List.append_cancel_left_eq] at e
    obtain ⟨h1, h2⟩ := digits_token ha.1 hb.1 (tail_starts a hr) (tail_starts b hq) e
    obtain ⟨h3, h4⟩ := tail_inj a b ha.2 hb.2 hr hq h2
    exact ⟨by rw [h1, h3], h4⟩
end

/-! ## What proper types say -/

/-- Signs none of which is a reference. -/
def NoAmp (ss : List Sign) : Prop := .amp ∉ ss ∧ .ampamp ∉ ss

def sig : Flat → List Sign
  | .mk _ _ ss => ss

theorem goodSigns_back {s : Sign} (hs : ∀ n, s = .dim n → n < 2 ^ 64) : ∀ {ss : List Sign}, GoodSigns ss → NoAmp ss → GoodSigns (ss ++ [s])
  | [], _, _ => by
    cases s with
    | dim n => exact ⟨hs n rfl, trivial⟩
    | _ => simp [GoodSigns]
  | .star :: ss, h, ha => by
    have := goodSigns_back hs (ss := ss) h ⟨fun h' => ha.1 (by simp [h']), fun h' => ha.2 (by simp [h'])⟩
    exact this
  | .amp :: ss, h, ha => absurd (by simp) ha.1
  | .ampamp :: ss, h, ha => absurd (by simp) ha.2
  | .dim n :: ss, h, ha => by
    have := goodSigns_back hs (ss := ss) h.2 ⟨fun h' => ha.1 (by simp [h']), fun h' => ha.2 (by simp [h'])⟩
    exact ⟨h.1, this⟩

theorem good_back {s : Sign} {f : Flat} (hs : ∀ n, s = .dim n → n < 2 ^ 64) (h : GoodFlat f) (ha : NoAmp (sig f)) :
    GoodFlat (f.back s) := by
  obtain ⟨ws, x, ss⟩ := f
  exact ⟨h.1, goodSigns_back hs h.2 ha⟩

theorem good_front {ws : List Word} {f : Flat} (h : GoodFlat f) : GoodFlat (f.front ws) := by
  obtain ⟨us, x, ss⟩ := f
  exact h

theorem sig_back (s : Sign) (f : Flat) : sig (f.back s) = sig f ++ [s] := by cases f; rfl

theorem sig_front (ws : List Word) (f : Flat) : sig (f.front ws) = sig f := by cases f; rfl

mutual
theorem says_good : (t : Ty) → Proper t → GoodFlat (says t) ∧ (¬ IsRef t → NoAmp (sig (says t)))
  | .named c v n, h => ⟨⟨h, trivial⟩, fun _ => ⟨by simp [says, sig], by simp [says, sig]⟩⟩
  | .inst c v n a, h => ⟨⟨⟨h.1, h.2.1, saysArgs_good a h.2.2⟩, trivial⟩, fun _ => ⟨by simp [says, sig], by simp [says, sig]⟩⟩
  | .func c v r a, h =>
    ⟨⟨⟨(says_good r h.1).1, saysArgs_good a h.2⟩, trivial⟩, fun _ => ⟨by simp [says, sig], by simp [says, sig]⟩⟩
  | .ptr c v t, h => by
    obtain ⟨h1, h2⟩ := says_good t h.1
    have h2 := h2 h.2
    refine ⟨good_front (good_back (by simp) h1 h2), fun _ => ?_⟩
    simp only [says, sig_front, sig_back]
    exact ⟨by simpa using h2.1, by simpa using h2.2⟩
  | .arr t n, h => by
    obtain ⟨h1, h2⟩ := says_good t h.1
    have h2 := h2 h.2.1
    refine ⟨good_back (fun m hm => by cases hm; exact h.2.2) h1 h2, fun _ => ?_⟩
    simp only [says, sig_back]
    exact ⟨by simpa using h2.1, by simpa using h2.2⟩
  | .lref t, h => by
    obtain ⟨h1, h2⟩ := says_good t h.1
    exact ⟨good_back (by simp) h1 (h2 h.2), fun h => absurd trivial h⟩
  | .rref t, h => by
    obtain ⟨h1, h2⟩ := says_good t h.1
    exact ⟨good_back (by simp) h1 (h2 h.2), fun h => absurd trivial h⟩
theorem saysArgs_good : (a : Args) → ProperArgs a → GoodFArgs (saysArgs a)
  | .nil, _ => trivial
  | .ty t r, h => ⟨(says_good t h.1).1, saysArgs_good r h.2⟩
  | .num n r, h => ⟨h.1, saysArgs_good r h.2⟩
  | .alloc a r, h => saysArgs_good r h
end

theorem name_inj {t u : Ty} (ht : Proper t) (hu : Proper u) {s : List Byte} (h1 : name t = some s) (h2 : name u = some s) :
    says t = says u := by
  have e1 : s = print (says t) := by
    by_cases h : NoQualArray t
    · rw [(name_eq t).1 h] at h1; cases h1; rfl
    · rw [(name_eq t).2 h] at h1; cases h1
  have e2 : s = print (says u) := by
    by_cases h : NoQualArray u
    · rw [(name_eq u).1 h] at h2; cases h2; rfl
    · rw [(name_eq u).2 h] at h2; cases h2
  exact (flat_inj _ _ (r := []) (q := []) (says_good t ht).1 (says_good u hu).1 (fun b hb => by cases hb) (fun b hb => by cases hb)
    (by rw [List.append_nil, List.append_nil, ← e1, ← e2])).1

/-! ## Simple types -/

theorem back_inj {s s' : Sign} {f g : Flat} (h : f.back s = g.back s') : f = g ∧ s = s' := by
  obtain ⟨a, b, c⟩ := f
  obtain ⟨a', b', c'⟩ := g
  simp only [Flat.back, Flat.mk.injEq] at h
  obtain ⟨h1, h2, h3⟩ := h
  have := List.append_inj' h3 rfl
  simp only [List.cons.injEq, and_true] at this
  exact ⟨by rw [h1, h2, this.1], this.2⟩

theorem back_ne {s : Sign} {f : Flat} {ws : List Word} {x : Core} : f.back s ≠ .mk ws x [] := by
  obtain ⟨a, b, c⟩ := f
  simp [Flat.back]

theorem words_cv {c v c' v' : Bool} (h : words c v = words c' v') : c = c' ∧ v = v' := by
  revert h
  cases c <;> cases v <;> cases c' <;> cases v' <;> decide

theorem front_nil (f : Flat) : f.front (words false false) = f := by
  obtain ⟨a, b, c⟩ := f
  rfl

mutual
theorem says_inj : (t u : Ty) → Simple t → Simple u → says t = says u → t = u
  | .named c v n, .named c' v' n', _, _, h => by
    simp only [says, Flat.mk.injEq, Core.named.injEq] at h
    obtain ⟨rfl, rfl⟩ := words_cv h.1
    rw [h.2.1]
  | .inst c v n a, .inst c' v' n' a', ht, hu, h => by
    simp only [says, Flat.mk.injEq, Core.inst.injEq] at h
    obtain ⟨rfl, rfl⟩ := words_cv h.1
    rw [h.2.1.1, saysArgs_inj a a' ht hu h.2.1.2]
  | .func c v n a, .func c' v' n' a', ht, hu, h => by
    simp only [says, Flat.mk.injEq, Core.func.injEq] at h
    obtain ⟨rfl, rfl⟩ := words_cv h.1
    rw [says_inj n n' ht.1 hu.1 h.2.1.1, saysArgs_inj a a' ht.2 hu.2 h.2.1.2]
  | .ptr c v t, .ptr c' v' t', ht, hu, h => by
    obtain ⟨rfl, rfl, ht⟩ := ht
    obtain ⟨rfl, rfl, hu⟩ := hu
    simp only [says, front_nil] at h
    rw [says_inj t t' ht hu (back_inj h).1]
  | .arr t n, .arr t' n', ht, hu, h => by
    simp only [says] at h
    obtain ⟨h1, h2⟩ := back_inj h
    rw [says_inj t t' ht hu h1]
    cases h2; rfl
  | .lref t, .lref t', ht, hu, h => by
    simp only [says] at h
    rw [says_inj t t' ht hu (back_inj h).1]
  | .rref t, .rref t', ht, hu, h => by
    simp only [says] at h
    rw [says_inj t t' ht hu (back_inj h).1]
  | .named .., .inst .., _, _, h => by simp [says] at h
  | .named .., .func .., _, _, h => by simp [says] at h
  | .named .., .ptr c v t, _, hu, h => by
    obtain ⟨rfl, rfl, hu⟩ := hu
    simp only [says, front_nil] at h
    exact absurd h.symm back_ne
  | .named .., .arr .., _, _, h => absurd h.symm back_ne
  | .named .., .lref .., _, _, h => absurd h.symm back_ne
  | .named .., .rref .., _, _, h => absurd h.symm back_ne
  | .inst .., .named .., _, _, h => by simp [says] at h
  | .inst .., .func .., _, _, h => by simp [says] at h
  | .inst .., .ptr c v t, _, hu, h => by
    obtain ⟨rfl, rfl, hu⟩ := hu
    simp only [says, front_nil] at h
    exact absurd h.symm back_ne
  | .inst .., .arr .., _, _, h => absurd h.symm back_ne
  | .inst .., .lref .., _, _, h => absurd h.symm back_ne
  | .inst .., .rref .., _, _, h => absurd h.symm back_ne
  | .func .., .named .., _, _, h => by simp [says] at h
  | .func .., .inst .., _, _, h => by simp [says] at h
  | .func .., .ptr c v t, _, hu, h => by
    obtain ⟨rfl, rfl, hu⟩ := hu
    simp only [says, front_nil] at h
    exact absurd h.symm back_ne
  | .func .., .arr .., _, _, h => absurd h.symm back_ne
  | .func .., .lref .., _, _, h => absurd h.symm back_ne
  | .func .., .rref .., _, _, h => absurd h.symm back_ne
  | .ptr c v t, .named .., ht, _, h => by
    obtain ⟨rfl, rfl, ht⟩ := ht
    simp only [says, front_nil] at h
    exact absurd h back_ne
  | .ptr c v t, .inst .., ht, _, h => by
    obtain ⟨rfl, rfl, ht⟩ := ht
    simp only [says, front_nil] at h
    exact absurd h back_ne
  | .ptr c v t, .func .., ht, _, h => by
    obtain ⟨rfl, rfl, ht⟩ := ht
    simp only [says, front_nil] at h
    exact absurd h back_ne
  | .ptr c v t, .arr .., ht, _, h => by
    obtain ⟨rfl, rfl, ht⟩ := ht
    simp only [says, front_nil] at h
    exact absurd (back_inj h).2 (by simp)
  | .ptr c v t, .lref .., ht, _, h => by
    obtain ⟨rfl, rfl, ht⟩ := ht
    simp only [says, front_nil] at h
    exact absurd (back_inj h).2 (by simp)
  | .ptr c v t, .rref .., ht, _, h => by
    obtain ⟨rfl, rfl, ht⟩ := ht
    simp only [says, front_nil] at h
    exact absurd (back_inj h).2 (by simp)
  | .arr .., .named .., _, _, h => absurd h back_ne
  | .arr .., .inst .., _, _, h => absurd h back_ne
  | .arr .., .func .., _, _, h => absurd h back_ne
  | .arr .., .ptr c v t, _, hu, h => by
    obtain ⟨rfl, rfl, hu⟩ := hu
    simp only [says, front_nil] at h
    exact absurd (back_inj h).2 (by simp)
  | .arr .., .lref .., _, _, h => by
    simp only [says] at h
    exact absurd (back_inj h).2 (by simp)
  | .arr .., .rref .., _, _, h => by
    simp only [says] at h
    exact absurd (back_inj h).2 (by simp)
  | .lref .., .named .., _, _, h => absurd h back_ne
  | .lref .., .inst .., _, _, h => absurd h back_ne
  | .lref .., .func .., _, _, h => absurd h back_ne
  | .lref .., .ptr c v t, _, hu, h => by
    obtain ⟨rfl, rfl, hu⟩ := hu
    simp only [says, front_nil] at h
    exact absurd (back_inj h).2 (by simp)
  | .lref .., .arr .., _, _, h => by
    simp only [says] at h
    exact absurd (back_inj h).2 (by simp)
  | .lref .., .rref .., _, _, h => by
    simp only [says] at h
    exact absurd (back_inj h).2 (by simp)
  | .rref .., .named .., _, _, h => absurd h back_ne
  | .rref .., .inst .., _, _, h => absurd h back_ne
  | .rref .., .func .., _, _, h => absurd h back_ne
  | .rref .., .ptr c v t, _, hu, h => by
    obtain ⟨rfl, rfl, hu⟩ := hu
    simp only [says, front_nil] at h
    exact absurd (back_inj h).2 (by simp)
  | .rref .., .arr .., _, _, h => by
    simp only [says] at h
    exact absurd (back_inj h).2 (by simp)
  | .rref .., .lref .., _, _, h => by
    simp only [says] at h
    exact absurd (back_inj h).2 (by simp)
theorem saysArgs_inj : (a b : Args) → Simples a → Simples b → saysArgs a = saysArgs b → a = b
  | .nil, .nil, _, _, _ => rfl
  | .ty t r, .ty t' r', ha, hb, h => by
    simp only [saysArgs, FArgs.ty.injEq] at h
    rw [says_inj t t' ha.1 hb.1 h.1, saysArgs_inj r r' ha.2 hb.2 h.2]
  | .num n r, .num n' r', ha, hb, h => by
    simp only [saysArgs, FArgs.num.injEq] at h
    rw [h.1, saysArgs_inj r r' ha hb h.2]
  | .nil, .ty .., _, _, h => by simp [saysArgs] at h
  | .nil, .num .., _, _, h => by simp [saysArgs] at h
  | .ty .., .nil, _, _, h => by simp [saysArgs] at h
  | .ty .., .num .., _, _, h => by simp [saysArgs] at h
  | .num .., .nil, _, _, h => by simp [saysArgs] at h
  | .num .., .ty .., _, _, h => by simp [saysArgs] at h
  | .alloc .., _, ha, _, _ => absurd ha (by simp [Simples])
  | _, .alloc .., _, hb, _ => absurd hb (by simp [Simples])
end

/-! ## The specialisation selected -/

theorem select_const (c v : Bool) (n : Nat) : Meta.select pats (.base c v n) =
    some (if c && v then .cv else if c then .const else if v then .vol else .any) := by
  cases c <;> cases v <;> simp [Meta.select, pats, Meta.Pat.deduce, Meta.Ty.isConst, Meta.Ty.isVol, Meta.Pat.le]

theorem select_ptr (c v : Bool) (t : Meta.Ty) : Meta.select pats (.ptr c v t) =
    some (if c && v then .cv else if c then .const else if v then .vol else .ptr) := by
  cases c <;> cases v <;> simp [Meta.select, pats, Meta.Pat.deduce, Meta.Ty.isConst, Meta.Ty.isVol, Meta.Pat.le]

theorem select_arr (t : Meta.Ty) (n : Nat) : Meta.select pats (.arr t n) = if t.isConst || t.isVol then none else some .arr := by
  cases hc : t.isConst <;> cases hv : t.isVol <;>
    simp [Meta.select, pats, Meta.Pat.deduce, Meta.Ty.isConst, Meta.Ty.isVol, Meta.Pat.le, hc, hv]

theorem select_lref (t : Meta.Ty) : Meta.select pats (.lref t) = some .lref := by
  simp [Meta.select, pats, Meta.Pat.deduce, Meta.Ty.isConst, Meta.Ty.isVol, Meta.Pat.le]

theorem select_rref (t : Meta.Ty) : Meta.select pats (.rref t) = some .rref := by
  simp [Meta.select, pats, Meta.Pat.deduce, Meta.Ty.isConst, Meta.Ty.isVol, Meta.Pat.le]

/-! ## Spelling -/

theorem decimal_eq {n : Nat} (h : n < 2 ^ 64) : decimal n = digits 20 n := by
  rw [decimal, digits_eq 20 n (by omega) (by omega)]

theorem front_words (c v : Bool) : front c v = printWords (words c v) := by
  cases c <;> cases v <;> decide +kernel

mutual
theorem spell_plain : (t : Ty) → (d : List Byte) → Proper t → Simple t → NoNestedArray t → isArr t = false →
    spell t d = print (says t) ++ d
  | .named c v n, d, _, _, _, _ => by
    simp [spell, says, print, printCore, printSigns, front_words]
  | .inst c v n a, d, hp, hs, hn, _ => by
    rw [spell, spellArgs_eq a hp.2.2 hs hn]
    simp [says, print, printCore, printSigns, front_words]
  | .func c v r a, d, hp, hs, hn, _ => by
    rw [spell, spellArgs_eq a hp.2 hs.2 hn.2.2, spell_plain r _ hp.1 hs.1 hn.2.1 hn.1]
    have e : lit "Function<" = lit "Function" ++ lit "<" := by decide +kernel
    have e' : lit ")>" = lit ")" ++ lit ">" := by decide +kernel
    simp [says, print, printCore, printSigns, front_words, e, e']
  | .ptr c v t, d, hp, hs, hn, _ => by
    obtain ⟨rfl, rfl, hs⟩ := hs
    rw [spell, paren, if_neg (by rw [hn.1]; simp), spell_plain t _ hp.1 hs hn.2 hn.1]
    simp [says, front_nil, print_back, printSigns, behind]
  | .lref t, d, hp, hs, hn, _ => by
    rw [spell, paren, if_neg (by rw [hn.1]; simp), spell_plain t _ hp.1 hs hn.2 hn.1]
    simp [says, print_back, printSigns]
  | .rref t, d, hp, hs, hn, _ => by
    rw [spell, paren, if_neg (by rw [hn.1]; simp), spell_plain t _ hp.1 hs hn.2 hn.1]
    simp [says, print_back, printSigns]
  | .arr t n, d, _, _, _, h => by simp [isArr] at h
theorem spell_eq : (t : Ty) → Proper t → Simple t → NoNestedArray t → spell t [] = print (says t)
  | .arr t n, hp, hs, hn => by
    rw [spell, spell_plain t _ hp.1 hs hn.2 hn.1, decimal_eq hp.2.2]
    simp [says, print_back, printSigns]
  | .named c v n, hp, hs, hn => by
    simp [spell, says, print, printCore, printSigns, front_words]
  | .inst c v n a, hp, hs, hn => by
    rw [spell, spellArgs_eq a hp.2.2 hs hn]
    simp [says, print, printCore, printSigns, front_words]
  | .func c v r a, hp, hs, hn => by
    rw [spell, spellArgs_eq a hp.2 hs.2 hn.2.2, spell_plain r _ hp.1 hs.1 hn.2.1 hn.1]
    have e : lit "Function<" = lit "Function" ++ lit "<" := by decide +kernel
    have e' : lit ")>" = lit ")" ++ lit ">" := by decide +kernel
    simp [says, print, printCore, printSigns, front_words, e, e']
  | .ptr c v t, hp, hs, hn => by
    obtain ⟨rfl, rfl, hs⟩ := hs
    rw [spell, paren, if_neg (by rw [hn.1]; simp), spell_plain t _ hp.1 hs hn.2 hn.1]
    simp [says, front_nil, print_back, printSigns, behind]
  | .lref t, hp, hs, hn => by
    rw [spell, paren, if_neg (by rw [hn.1]; simp), spell_plain t _ hp.1 hs hn.2 hn.1]
    simp [says, print_back, printSigns]
  | .rref t, hp, hs, hn => by
    rw [spell, paren, if_neg (by rw [hn.1]; simp), spell_plain t _ hp.1 hs hn.2 hn.1]
    simp [says, print_back, printSigns]
theorem spellArgs_eq : (a : Args) → ProperArgs a → Simples a → NoNestedArrays a → spellArgs a = printArgs (saysArgs a)
  | .nil, _, _, _ => by simp [spellArgs, saysArgs, printArgs]
  | .ty t r, hp, hs, hn => by
    rw [spellArgs, spell_eq t hp.1 hs.1 hn.1, spellTail_eq r hp.2 hs.2 hn.2, saysArgs, printArgs]
  | .num n r, hp, hs, hn => by
    rw [spellArgs, decimal_eq hp.1, spellTail_eq r hp.2 hs hn, saysArgs, printArgs]
  | .alloc _ _, _, hs, _ => absurd hs (by simp [Simples])
theorem spellTail_eq : (a : Args) → ProperArgs a → Simples a → NoNestedArrays a → spellTail a = printTail (saysArgs a)
  | .nil, _, _, _ => by simp [spellTail, saysArgs, printTail]
  | .ty t r, hp, hs, hn => by
    rw [spellTail, spell_eq t hp.1 hs.1 hn.1, spellTail_eq r hp.2 hs.2 hn.2, saysArgs, printTail, List.append_assoc]
  | .num n r, hp, hs, hn => by
    rw [spellTail, decimal_eq hp.1, spellTail_eq r hp.2 hs hn, saysArgs, printTail, List.append_assoc]
  | .alloc _ _, _, hs, _ => absurd hs (by simp [Simples])
end

end Rpp.Typename
