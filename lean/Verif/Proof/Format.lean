import Verif.Proof.Str
import Verif.Spec.Format

/-! Lemmas on the format model: each pass described by the text it produces. -/

namespace Rpp
open Rpp.Spec Rpp.Fmt

/-- The string with `t` stored at `i`. -/
def Str.put (s : Str) (i : Nat) (t : List Byte) : Str :=
  ⟨s.buf.take i ++ t.map some ++ s.buf.drop (i + t.length), s.len⟩

/-- There is room up to index `k`. -/
def Fits (s : Str) (k : Nat) : Prop := k ≤ s.len ∧ s.len ≤ s.buf.length ∧ s.len < 2 ^ 63

/-- `r` is what storing `t` at `i` gives. -/
def Put (s : Str) (i : Nat) (t : List Byte) (r : Res (Str × Nat)) : Prop :=
  Fits s (i + t.length) → r = .ok (s.put i t, i + t.length)

theorem put_buf_length {s : Str} {i : Nat} {t : List Byte} (h : i + t.length ≤ s.buf.length) :
    (s.put i t).buf.length = s.buf.length := by
  unfold Str.put; simp; omega

theorem Fits.mono {s : Str} {k j : Nat} (h : Fits s k) (hj : j ≤ k) : Fits s j :=
  ⟨Nat.le_trans hj h.1, h.2⟩

theorem Fits.put {s : Str} {k i : Nat} {t : List Byte} (h : Fits s k) (hi : i + t.length ≤ k) :
    Fits (s.put i t) k := by
  obtain ⟨h1, h2, h3⟩ := h
  refine ⟨h1, ?_, h3⟩
  rw [put_buf_length (by omega)]; exact h2

theorem put_nil (s : Str) (i : Nat) : s.put i [] = s := by
  unfold Str.put; simp

theorem Str.put_put {s : Str} {i : Nat} {a b : List Byte} (h : i + a.length ≤ s.buf.length) :
    (s.put i a).put (i + a.length) b = s.put i (a ++ b) := by
  unfold Str.put
  have e1 : (List.take i s.buf).length = i := by simp; omega
  simp only [Str.mk.injEq, and_true, List.map_append, List.length_append]
  rw [List.take_append_of_le_length (by simp; omega)]
  rw [List.take_of_length_le (by simp; omega)]
  have e2 : (List.take i s.buf ++ List.map some a).length = i + a.length := by simp; omega
  have e3 : i + a.length + b.length = (List.take i s.buf ++ List.map some a).length + b.length := by
    rw [e2]
  rw [e3, List.drop_append, List.drop_eq_nil_of_le (by omega), List.nil_append]
  rw [show (List.take i s.buf ++ List.map some a).length + b.length -
    (List.take i s.buf ++ List.map some a).length = b.length by omega]
  rw [List.drop_drop]
  simp only [List.append_assoc]
  rw [show i + a.length + b.length = i + (a.length + b.length) by omega]

theorem Put.nil (s : Str) (i : Nat) : Put s i [] (.ok (s, i)) := by
  intro _; rw [put_nil]; rfl

theorem Put.step {s : Str} {i : Nat} {a b : List Byte} {r : Res (Str × Nat)}
    {k : Str × Nat → Res (Str × Nat)} (h1 : Put s i a r)
    (h2 : Put (s.put i a) (i + a.length) b (k (s.put i a, i + a.length))) :
    Put s i (a ++ b) (r >>= k) := by
  intro hf
  rw [List.length_append] at hf
  have hf1 : Fits s (i + a.length) := hf.mono (by omega)
  rw [h1 hf1]
  have hf2 : Fits (s.put i a) (i + a.length + b.length) := by
    have := Fits.put (i := i) (t := a) hf (by omega)
    exact this.mono (by omega)
  have := h2 hf2
  simp only [bind, Except.bind]
  rw [this, Str.put_put (by have := hf1.1; have := hf1.2.1; omega), List.length_append]
  rw [Nat.add_assoc]

theorem write_put {s : Str} {i : Nat} {v : View} (h : v.off + v.len ≤ v.mem.length) :
    Put s i v.bytes (s.write i v) := by
  have hl : v.bytes.length = v.len := by unfold View.bytes; simp; omega
  intro hf
  obtain ⟨f1, f2, f3⟩ := hf
  rw [hl] at f1
  have hb : Str.bytesOf v = .ok v.bytes := by
    unfold Str.bytesOf
    by_cases h0 : v.len = 0
    · rw [if_pos h0]
      have : v.bytes = [] := List.eq_nil_of_length_eq_zero (by omega)
      rw [this]
    · rw [if_neg h0, if_pos h]; rfl
  unfold Str.write
  rw [wadd_eq (by omega)]
  simp only [f1, not_true_eq_false, if_false, hb, bind, Except.bind, pure, Except.pure]
  unfold Str.copyIn Str.put
  by_cases h0 : v.bytes.length = 0
  · have e : v.bytes = [] := List.eq_nil_of_length_eq_zero h0
    rw [if_pos h0, e]
    simp
    rw [e] at hl; simp at hl; omega
  · rw [if_neg h0, if_pos (by omega)]
    simp only [hl]

theorem putLit_put (s : Str) (i : Nat) (t : List Byte) : Put s i t (putLit s i t) := by
  have := write_put (s := s) (i := i) (v := View.of t) (by simp [View.of])
  rw [View.of_bytes] at this
  exact this

theorem writeChar_put (s : Str) (i : Nat) (c : Byte) : Put s i [c] (s.writeChar i c) := by
  intro hf
  obtain ⟨f1, f2, f3⟩ := hf
  simp only [List.length_singleton] at f1
  unfold Str.writeChar
  rw [if_neg (by omega), if_pos (by omega)]
  unfold Str.put
  rw [List.set_eq_take_append_cons_drop, if_pos (by omega)]
  simp

theorem putText_put (s : Str) (i : Nat) (t : List Byte) : Put s i t (putText s i t) := by
  unfold putText View.sub
  simp only [View.of, List.length_append, List.length_singleton]
  rw [if_neg (by omega), if_neg (by omega)]
  simp only [bind, Except.bind]
  have := write_put (s := s) (i := i) (v := ⟨t ++ [0#8], 0 + 0, t.length - 0⟩) (by simp)
  simpa [View.bytes] using this

theorem ptr_put (s : Str) (i : Nat) (t : List Byte) (c : Byte) :
    Put s i (t ++ [c]) (snprintfAt s i t >>= fun p => p.1.writeChar p.2 c) := by
  intro hf
  have hf' := hf
  obtain ⟨f1, f2, f3⟩ := hf
  simp only [List.length_append, List.length_singleton] at f1
  unfold snprintfAt
  rw [wsub_eq (by omega) (by omega), wadd_eq (by omega)]
  rw [if_neg (by omega)]
  rw [List.take_of_length_le (by omega)]
  have e : s.copyIn i (t ++ [0#8]) = .ok (s.put i (t ++ [0#8])) := by
    unfold Str.copyIn Str.put
    rw [if_neg (by simp), if_pos (by simp; omega)]
  simp only [e, bind, Except.bind, pure, Except.pure]
  have hf2 : Fits (s.put i (t ++ [0#8])) (i + t.length + 1) := by
    have : Fits s (i + t.length + 1) := ⟨by omega, f2, f3⟩
    exact this.put (by simp; omega)
  have hw := writeChar_put (s.put i (t ++ [0#8])) (i + t.length) c hf2
  rw [hw]
  congr 1
  refine Prod.ext ?_ (by simp; omega)
  simp only
  rw [← Str.put_put (b := [0#8]) (by omega), ← Str.put_put (b := [c]) (by omega)]
  generalize hs : s.put i t = q
  have hq : q.buf.length = s.buf.length := by rw [← hs]; exact put_buf_length (by omega)
  have hj : i + t.length ≤ q.buf.length := by omega
  clear hf2 hw hf' hs
  generalize i + t.length = j at hj ⊢
  unfold Str.put
  have e1 : (List.take j q.buf).length = j := by simp; omega
  simp only [Str.mk.injEq, and_true, List.map_cons, List.map_nil, List.length_singleton]
  rw [List.append_assoc (List.take j q.buf)]
  rw [List.take_append_of_le_length (by omega), List.take_take, Nat.min_self]
  rw [List.drop_append, e1, List.drop_eq_nil_of_le (by omega)]
  simp

/-! ### Texts -/

def textCases (value : Int) : List (List Byte × Int) → List Byte
  | [] => []
  | (name, check) :: r => (if value = check then name else []) ++ textCases value r

def textNames (i n : Nat) : List (List Byte) → List Byte
  | [] => []
  | t :: r => t ++ ((if i + 1 < n then lit ", " else []) ++ textNames (i + 1) n r)

mutual

/-- The text that the two passes are about, as bracketed by the writing pass. -/
def text : Val → List Byte
  | .void => lit "void"
  | .char c => [c]
  | .int n => intText n
  | .float t => t
  | .bool b => if b then lit "true" else lit "false"
  | .ptr none => lit "(null)"
  | .ptr (some t) => [ch '('] ++ (t ++ [ch ')'])
  | .str v => v.bytes
  | .seq k items => k.openText ++ (textItems 0 items.length items ++ [ch ']'])
  | .map n items => lit "Map[" ++ (textItems 0 n items ++ [ch ']'])
  | .item k v => lit "{" ++ (text k ++ (lit " : " ++ (text v ++ [ch '}'])))
  | .record name fields => name ++ ([ch '{'] ++ (textItems 0 fields.length fields ++ [ch '}']))
  | .field name v => name ++ (lit " : " ++ text v)
  | .enum name cases value => name ++ (lit "::" ++ textCases value cases)
  | .own k none => k.nullText
  | .own k (some v) => k.openText ++ (text v ++ [ch '}'])
  | .rc none _ => lit "Rc{null}"
  | .rc (some v) refs => lit "Rc[" ++ (intText refs ++ (lit "]{" ++ (text v ++ [ch '}'])))
  | .arc none _ => lit "Arc{null}"
  | .arc (some v) refs => lit "Arc[" ++ (intText refs ++ (lit "]{" ++ (text v ++ [ch '}'])))
  | .pair l r => lit "Pair{" ++ (text l ++ (lit ", " ++ (text r ++ [ch '}'])))
  | .tuple items => lit "Tuple{" ++ (textItems 0 items.length items ++ [ch '}'])
  | .variant v => lit "Variant{" ++ (text v ++ [ch '}'])
  | .named name v => name ++ ([ch '{'] ++ (text v ++ [ch '}']))
  | .storage name => lit "Storage<" ++ (name ++ [ch '>'])
  | .fn ret args =>
    lit "Function{" ++ (ret ++ ([ch '('] ++ (textNames 0 args.length args ++ ([ch ')'] ++ [ch '}']))))
  | .vecF items => lit "Vec" ++ (intText items.length ++ ([ch '{'] ++
      (textItems 0 items.length items ++ [ch '}'])))
  | .vecI signed items => lit "Vec" ++ (intText items.length ++
      ((if signed then lit "i{" else lit "u{") ++ (textItems 0 items.length items ++ [ch '}'])))
  | .mat4 x0 x1 x2 x3 y0 y1 y2 y3 z0 z1 z2 z3 w0 w1 w2 w3 =>
    lit "Mat4{" ++
    ([ch '{'] ++ (text x0 ++ (lit ", " ++ (text x1 ++ (lit ", " ++ (text x2 ++ (lit ", " ++ (text x3 ++
      ([ch '}'] ++ (lit ", " ++
    ([ch '{'] ++ (text y0 ++ (lit ", " ++ (text y1 ++ (lit ", " ++ (text y2 ++ (lit ", " ++ (text y3 ++
      ([ch '}'] ++ (lit ", " ++
    ([ch '{'] ++ (text z0 ++ (lit ", " ++ (text z1 ++ (lit ", " ++ (text z2 ++ (lit ", " ++ (text z3 ++
      ([ch '}'] ++ (lit ", " ++
    ([ch '{'] ++ (text w0 ++ (lit ", " ++ (text w1 ++ (lit ", " ++ (text w2 ++ (lit ", " ++ (text w3 ++
      ([ch '}'] ++ [ch '}'])))))))))))))))))))))))))))))))))))))))
  | .quat x y z w => lit "Quat{" ++ (text x ++ (lit ", " ++ (text y ++ (lit ", " ++ (text z ++
      (lit ", " ++ (text w ++ [ch '}'])))))))
  | .bbox x y z x' y' z' => lit "BBox{{" ++ (text x ++ (lit ", " ++ (text y ++ (lit ", " ++ (text z ++
      (lit "}, {" ++ (text x' ++ (lit ", " ++ (text y' ++ (lit ", " ++ (text z' ++ lit "}}")))))))))))

def textItems (i n : Nat) : List Val → List Byte
  | [] => []
  | v :: r => text v ++ ((if i + 1 < n then lit ", " else []) ++ textItems (i + 1) n r)

end

theorem writeCases_put (value : Int) : ∀ (cases : List (List Byte × Int)) (s : Str) (i : Nat),
    Put s i (textCases value cases) (writeCases value s i cases)
  | [], s, i => Put.nil s i
  | (name, check) :: r, s, i => by
    unfold textCases writeCases
    refine Put.step ?_ (writeCases_put value r _ _)
    by_cases h : value = check
    · rw [if_pos h, if_pos h]; exact putLit_put s i name
    · rw [if_neg h, if_neg h]; exact Put.nil s i

theorem sep_put (p : Prop) [Decidable p] (s : Str) (i : Nat) :
    Put s i (if p then lit ", " else []) (if p then putLit s i (lit ", ") else .ok (s, i)) := by
  by_cases h : p
  · rw [if_pos h, if_pos h]; exact putLit_put s i _
  · rw [if_neg h, if_neg h]; exact Put.nil s i

theorem writeNames_put (n : Nat) : ∀ (names : List (List Byte)) (j : Nat) (s : Str) (i : Nat),
    Put s i (textNames j n names) (writeNames j n s i names)
  | [], _, s, i => Put.nil s i
  | t :: r, j, s, i => by
    unfold textNames writeNames
    exact Put.step (putLit_put s i t) (Put.step (sep_put _ _ _) (writeNames_put n r _ _ _))

mutual

theorem writeV_put : ∀ (v : Val), Every ValidPart v → ∀ s i, Put s i (text v) (writeV s i v)
  | .void, _, s, i => by unfold text writeV; exact putLit_put s i _
  | .char c, _, s, i => by unfold text writeV; exact writeChar_put s i c
  | .int n, _, s, i => by unfold text writeV; exact putText_put s i _
  | .float t, _, s, i => by unfold text writeV; exact putText_put s i _
  | .bool b, _, s, i => by
    unfold text writeV
    cases b
    · exact putLit_put s i _
    · exact putLit_put s i _
  | .ptr none, _, s, i => by unfold text writeV; exact putLit_put s i _
  | .ptr (some t), _, s, i => by
    unfold text writeV
    exact Put.step (writeChar_put s i _) (ptr_put _ _ t _)
  | .str v, h, s, i => by unfold text writeV; unfold Every at h; exact write_put h.1
  | .seq k items, h, s, i => by
    unfold text writeV
    unfold Every at h
    refine Put.step ?_ (Put.step (writeItems_put items h.2 _ _ _ _) (writeChar_put _ _ _))
    cases k
    · exact writeChar_put s i _
    all_goals exact putLit_put s i _
  | .map n items, h, s, i => by
    unfold text writeV
    unfold Every at h
    exact Put.step (putLit_put s i _) (Put.step (writeItems_put items h.2 _ _ _ _) (writeChar_put _ _ _))
  | .item k v, h, s, i => by
    unfold text writeV
    unfold Every at h
    exact Put.step (putLit_put s i _) (Put.step (writeV_put k h.2.1 _ _) (Put.step (putLit_put _ _ _)
      (Put.step (writeV_put v h.2.2 _ _) (writeChar_put _ _ _))))
  | .record name fields, h, s, i => by
    unfold text writeV
    unfold Every at h
    exact Put.step (putLit_put s i _) (Put.step (writeChar_put _ _ _)
      (Put.step (writeItems_put fields h.2 _ _ _ _) (writeChar_put _ _ _)))
  | .field name v, h, s, i => by
    unfold text writeV
    unfold Every at h
    exact Put.step (putLit_put s i _) (Put.step (putLit_put _ _ _) (writeV_put v h.2 _ _))
  | .enum name cases value, _, s, i => by
    unfold text writeV
    exact Put.step (putLit_put s i _) (Put.step (putLit_put _ _ _) (writeCases_put value cases _ _))
  | .own k none, _, s, i => by unfold text writeV; exact putLit_put s i _
  | .own k (some v), h, s, i => by
    unfold text writeV
    unfold Every at h
    exact Put.step (putLit_put s i _) (Put.step (writeV_put v h.2 _ _) (writeChar_put _ _ _))
  | .rc none _, _, s, i => by unfold text writeV; exact putLit_put s i _
  | .rc (some v) refs, h, s, i => by
    unfold text writeV
    unfold Every at h
    exact Put.step (putLit_put s i _) (Put.step (putText_put _ _ _) (Put.step (putLit_put _ _ _)
      (Put.step (writeV_put v h.2 _ _) (writeChar_put _ _ _))))
  | .arc none _, _, s, i => by unfold text writeV; exact putLit_put s i _
  | .arc (some v) refs, h, s, i => by
    unfold text writeV
    unfold Every at h
    exact Put.step (putLit_put s i _) (Put.step (putText_put _ _ _) (Put.step (putLit_put _ _ _)
      (Put.step (writeV_put v h.2 _ _) (writeChar_put _ _ _))))
  | .pair l r, h, s, i => by
    unfold text writeV
    unfold Every at h
    exact Put.step (putLit_put s i _) (Put.step (writeV_put l h.2.1 _ _) (Put.step (putLit_put _ _ _)
      (Put.step (writeV_put r h.2.2 _ _) (writeChar_put _ _ _))))
  | .tuple items, h, s, i => by
    unfold text writeV
    unfold Every at h
    exact Put.step (putLit_put s i _) (Put.step (writeItems_put items h.2 _ _ _ _) (writeChar_put _ _ _))
  | .variant v, h, s, i => by
    unfold text writeV
    unfold Every at h
    exact Put.step (putLit_put s i _) (Put.step (writeV_put v h.2 _ _) (writeChar_put _ _ _))
  | .named name v, h, s, i => by
    unfold text writeV
    unfold Every at h
    exact Put.step (putLit_put s i _) (Put.step (writeChar_put _ _ _) (Put.step (writeV_put v h.2 _ _)
      (writeChar_put _ _ _)))
  | .storage name, _, s, i => by
    unfold text writeV
    exact Put.step (putLit_put s i _) (Put.step (putLit_put _ _ _) (writeChar_put _ _ _))
  | .fn ret args, _, s, i => by
    unfold text writeV
    exact Put.step (putLit_put s i _) (Put.step (putLit_put _ _ _) (Put.step (writeChar_put _ _ _)
      (Put.step (writeNames_put _ args _ _ _) (Put.step (writeChar_put _ _ _) (writeChar_put _ _ _)))))
  | .vecF items, h, s, i => by
    unfold text writeV
    unfold Every at h
    exact Put.step (putLit_put s i _) (Put.step (putText_put _ _ _) (Put.step (writeChar_put _ _ _)
      (Put.step (writeItems_put items h.2 _ _ _ _) (writeChar_put _ _ _))))
  | .vecI signed items, h, s, i => by
    unfold text writeV
    unfold Every at h
    refine Put.step (putLit_put s i _) (Put.step (putText_put _ _ _) (Put.step ?_
      (Put.step (writeItems_put items h.2 _ _ _ _) (writeChar_put _ _ _))))
    cases signed
    · exact putLit_put _ _ _
    · exact putLit_put _ _ _
  | .mat4 x0 x1 x2 x3 y0 y1 y2 y3 z0 z1 z2 z3 w0 w1 w2 w3, h, s, i => by
    unfold text writeV
    unfold Every at h
    obtain ⟨_, ⟨hx0, hx1, hx2, hx3⟩, ⟨hy0, hy1, hy2, hy3⟩, ⟨hz0, hz1, hz2, hz3⟩, hw0, hw1, hw2, hw3⟩ := h
    refine Put.step (putLit_put s i _) ?_
    refine Put.step (writeChar_put _ _ _) (Put.step (writeV_put x0 hx0 _ _) (Put.step (putLit_put _ _ _)
      (Put.step (writeV_put x1 hx1 _ _) (Put.step (putLit_put _ _ _) (Put.step (writeV_put x2 hx2 _ _)
      (Put.step (putLit_put _ _ _) (Put.step (writeV_put x3 hx3 _ _) (Put.step (writeChar_put _ _ _)
      (Put.step (putLit_put _ _ _) ?_)))))))))
    refine Put.step (writeChar_put _ _ _) (Put.step (writeV_put y0 hy0 _ _) (Put.step (putLit_put _ _ _)
      (Put.step (writeV_put y1 hy1 _ _) (Put.step (putLit_put _ _ _) (Put.step (writeV_put y2 hy2 _ _)
      (Put.step (putLit_put _ _ _) (Put.step (writeV_put y3 hy3 _ _) (Put.step (writeChar_put _ _ _)
      (Put.step (putLit_put _ _ _) ?_)))))))))
    refine Put.step (writeChar_put _ _ _) (Put.step (writeV_put z0 hz0 _ _) (Put.step (putLit_put _ _ _)
      (Put.step (writeV_put z1 hz1 _ _) (Put.step (putLit_put _ _ _) (Put.step (writeV_put z2 hz2 _ _)
      (Put.step (putLit_put _ _ _) (Put.step (writeV_put z3 hz3 _ _) (Put.step (writeChar_put _ _ _)
      (Put.step (putLit_put _ _ _) ?_)))))))))
    exact Put.step (writeChar_put _ _ _) (Put.step (writeV_put w0 hw0 _ _) (Put.step (putLit_put _ _ _)
      (Put.step (writeV_put w1 hw1 _ _) (Put.step (putLit_put _ _ _) (Put.step (writeV_put w2 hw2 _ _)
      (Put.step (putLit_put _ _ _) (Put.step (writeV_put w3 hw3 _ _) (Put.step (writeChar_put _ _ _)
      (writeChar_put _ _ _)))))))))
  | .quat x y z w, h, s, i => by
    unfold text writeV
    unfold Every at h
    obtain ⟨_, hx, hy, hz, hw⟩ := h
    exact Put.step (putLit_put s i _) (Put.step (writeV_put x hx _ _) (Put.step (putLit_put _ _ _)
      (Put.step (writeV_put y hy _ _) (Put.step (putLit_put _ _ _) (Put.step (writeV_put z hz _ _)
      (Put.step (putLit_put _ _ _) (Put.step (writeV_put w hw _ _) (writeChar_put _ _ _))))))))
  | .bbox x y z x' y' z', h, s, i => by
    unfold text writeV
    unfold Every at h
    obtain ⟨_, ⟨hx, hy, hz⟩, hx', hy', hz'⟩ := h
    exact Put.step (putLit_put s i _) (Put.step (writeV_put x hx _ _) (Put.step (putLit_put _ _ _)
      (Put.step (writeV_put y hy _ _) (Put.step (putLit_put _ _ _) (Put.step (writeV_put z hz _ _)
      (Put.step (putLit_put _ _ _) (Put.step (writeV_put x' hx' _ _) (Put.step (putLit_put _ _ _)
      (Put.step (writeV_put y' hy' _ _) (Put.step (putLit_put _ _ _) (Put.step (writeV_put z' hz' _ _)
      (putLit_put _ _ _))))))))))))

theorem writeItems_put : ∀ (vs : List Val), EveryOf ValidPart vs → ∀ j n s i,
    Put s i (textItems j n vs) (writeItems j n s i vs)
  | [], _, _, _, s, i => by unfold textItems writeItems; exact Put.nil s i
  | v :: r, h, j, n, s, i => by
    unfold textItems writeItems
    unfold EveryOf at h
    exact Put.step (writeV_put v h.1 s i) (Put.step (sep_put _ _ _) (writeItems_put r h.2 _ _ _ _))

end

end Rpp
