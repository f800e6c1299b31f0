import Verif.Model.Range
import Verif.Proof.Math
import Mathlib.Data.List.Basic

/-! Linked lists in the memory of the range allocator. -/

namespace Rpp.RA
open Rpp

theorem upd_same {β : Type _} (f : Nat → β) (i : Nat) (b : β) : upd f i b i = b := by simp [upd]
theorem upd_ne {β : Type _} (f : Nat → β) {i j : Nat} (b : β) (h : j ≠ i) : upd f i b j = f j := by
  simp [upd, h]

variable {ρ : Type _}

/-- The nodes `l` are linked in this order, between `p` and `n`. -/
def Seg (nx pv : ρ → Option Nat) (V : Nat → Option ρ) : Option Nat → List Nat → Option Nat → Prop
  | _, [], _ => True
  | p, a :: l, n => (∃ b, V a = some b ∧ pv b = p ∧ nx b = l.head?.or n) ∧ Seg nx pv V (some a) l n

variable {nx pv : ρ → Option Nat} {V V' : Nat → Option ρ}

theorem Seg_cons {p n : Option Nat} {a : Nat} {l : List Nat} : Seg nx pv V p (a :: l) n ↔
    (∃ b, V a = some b ∧ pv b = p ∧ nx b = l.head?.or n) ∧ Seg nx pv V (some a) l n := Iff.rfl

theorem Seg_append {l1 l2 : List Nat} : ∀ {p n : Option Nat},
    Seg nx pv V p (l1 ++ l2) n ↔
      Seg nx pv V p l1 (l2.head?.or n) ∧ Seg nx pv V (l1.getLast?.or p) l2 n := by
  induction l1 with
  | nil => intro p n; simp [Seg]
  | cons a l1 ih =>
    intro p n
    rw [List.cons_append, Seg_cons, Seg_cons, ih]
    have e1 : (l1 ++ l2).head?.or n = l1.head?.or (l2.head?.or n) := by
      cases l1 <;> simp
    have e2 : l1.getLast?.or (some a) = (a :: l1).getLast?.or p := by
      cases l1 with
      | nil => simp
      | cons c l => simp [List.getLast?_eq_some_getLast]
    rw [e1, e2, and_assoc]

theorem Seg_congr {l : List Nat} : ∀ {p n : Option Nat}, Seg nx pv V p l n →
    (∀ a ∈ l, ∀ r, V a = some r → ∃ r', V' a = some r' ∧ nx r' = nx r ∧ pv r' = pv r) →
    Seg nx pv V' p l n := by
  induction l with
  | nil => intros; trivial
  | cons a l ih =>
    intro p n h hc
    obtain ⟨⟨b, h1, h2, h3⟩, h4⟩ := h
    obtain ⟨b', e1, e2, e3⟩ := hc a List.mem_cons_self b h1
    exact ⟨⟨b', e1, by rw [e3, h2], by rw [e2, h3]⟩,
      ih h4 (fun x hx => hc x (List.mem_cons_of_mem _ hx))⟩

theorem Seg_relast {l : List Nat} : ∀ {p n n' : Option Nat}, Seg nx pv V p l n → l.Nodup →
    (∀ a ∈ l, ∀ r, V a = some r → ∃ r', V' a = some r' ∧
      nx r' = (if l.getLast? = some a then n' else nx r) ∧ pv r' = pv r) →
    Seg nx pv V' p l n' := by
  induction l with
  | nil => intros; trivial
  | cons a l ih =>
    intro p n n' h hn hc
    obtain ⟨⟨b, h1, h2, h3⟩, h4⟩ := h
    rw [List.nodup_cons] at hn
    obtain ⟨b', e1, e2, e3⟩ := hc a List.mem_cons_self b h1
    cases l with
    | nil =>
      refine ⟨⟨b', e1, by rw [e3, h2], ?_⟩, trivial⟩
      rw [e2, if_pos (by simp)]; simp
    | cons c l =>
      refine ⟨⟨b', e1, by rw [e3, h2], ?_⟩, ?_⟩
      · rw [e2, if_neg, h3]
        · simp
        · intro hh
          apply hn.1
          have : (c :: l).getLast? = some a := by
            simpa [List.getLast?_cons] using hh
          exact List.mem_of_getLast? this
      · refine ih h4 hn.2 (fun x hx r hr => ?_)
        obtain ⟨r', q1, q2, q3⟩ := hc x (List.mem_cons_of_mem _ hx) r hr
        refine ⟨r', q1, ?_, q3⟩
        rw [q2]
        simp [List.getLast?_cons]

theorem Seg_rehead {l : List Nat} {p p' n : Option Nat} (h : Seg nx pv V p l n) (hn : l.Nodup)
    (hc : ∀ a ∈ l, ∀ r, V a = some r → ∃ r', V' a = some r' ∧
      nx r' = nx r ∧ pv r' = (if l.head? = some a then p' else pv r)) :
    Seg nx pv V' p' l n := by
  cases l with
  | nil => trivial
  | cons a l =>
    obtain ⟨⟨b, h1, h2, h3⟩, h4⟩ := h
    rw [List.nodup_cons] at hn
    obtain ⟨b', e1, e2, e3⟩ := hc a List.mem_cons_self b h1
    refine ⟨⟨b', e1, by rw [e3]; simp, by rw [e2, h3]⟩, Seg_congr h4 (fun x hx r hr => ?_)⟩
    obtain ⟨r', q1, q2, q3⟩ := hc x (List.mem_cons_of_mem _ hx) r hr
    refine ⟨r', q1, q2, ?_⟩
    rw [q3, if_neg]
    rintro hh
    simp only [List.head?_cons, Option.some.injEq] at hh
    exact hn.1 (hh ▸ hx)

theorem Seg_cut {l1 l2 : List Nat} {b : Nat} {p n : Option Nat}
    (h : Seg nx pv V p (l1 ++ b :: l2) n) (hn : (l1 ++ b :: l2).Nodup)
    (hc : ∀ a ∈ l1 ++ l2, ∀ r, V a = some r → ∃ r', V' a = some r' ∧
      nx r' = (if l1.getLast? = some a then l2.head?.or n else nx r) ∧
      pv r' = (if l2.head? = some a then l1.getLast?.or p else pv r)) :
    Seg nx pv V' p (l1 ++ l2) n := by
  rw [Seg_append] at h ⊢
  rw [List.nodup_append] at hn
  obtain ⟨n1, n2, n3⟩ := hn
  rw [List.nodup_cons] at n2
  refine ⟨Seg_relast h.1 n1 (fun a ha r hr => ?_), Seg_rehead h.2.2 n2.2 (fun a ha r hr => ?_)⟩
  · obtain ⟨r', q1, q2, q3⟩ := hc a (List.mem_append_left _ ha) r hr
    refine ⟨r', q1, q2, ?_⟩
    rw [q3, if_neg]
    intro hh
    exact n3 a ha a (List.mem_cons_of_mem _ (List.mem_of_head? hh)) rfl
  · obtain ⟨r', q1, q2, q3⟩ := hc a (List.mem_append_right _ ha) r hr
    refine ⟨r', q1, ?_, q3⟩
    rw [q2, if_neg]
    intro hh
    exact n3 a (List.mem_of_getLast? hh) a (List.mem_cons_of_mem _ ha) rfl

theorem Seg_get {l1 l2 : List Nat} {b : Nat} {p n : Option Nat}
    (h : Seg nx pv V p (l1 ++ b :: l2) n) :
    ∃ r, V b = some r ∧ pv r = l1.getLast?.or p ∧ nx r = l2.head?.or n := by
  rw [Seg_append] at h
  exact h.2.1

theorem Seg_live {l : List Nat} {p n : Option Nat} (h : Seg nx pv V p l n) {a : Nat} (ha : a ∈ l) :
    ∃ r, V a = some r := by
  obtain ⟨l1, l2, rfl⟩ := List.append_of_mem ha
  obtain ⟨r, hr, _⟩ := Seg_get h
  exact ⟨r, hr⟩

/-! ### The two views of a block -/

/-- A block without the links of the free lists. -/
def mainOf (b : RBlock) : RBlock := { b with nextF := none, prevF := none }

/-- The view of the free lists: only free blocks, their bucket and their links. -/
structure FB where
  idx : Nat
  nx : Option Nat
  pv : Option Nat
  deriving DecidableEq

def fbOf (B bias : Nat) (b : RBlock) : Option FB :=
  if b.free then some ⟨size_to_idx B bias b.size, b.nextF, b.prevF⟩ else none

/-- Main view of the memory. -/
def Mv (s : RA) (i : Nat) : Option RBlock := (s.mem i).map mainOf

/-- Free view of the memory. -/
def Fv (B bias : Nat) (s : RA) (i : Nat) : Option FB := (s.mem i).bind (fbOf B bias)

/-- The free lists are in order. -/
structure FreeInv (V : Nat → Option FB) (heads : Nat → Option Nat) (cnt : Nat → Nat)
    (F : Nat → List Nat) : Prop where
  seg : ∀ j, Seg FB.nx FB.pv V none (F j) none
  head : ∀ j, heads j = (F j).head?
  nodup : ∀ j, (F j).Nodup
  mem : ∀ i j, i ∈ F j ↔ ∃ r, V i = some r ∧ r.idx = j
  cnt : ∀ j, cnt j = (F j).length % 2 ^ 64

theorem wr_ok {s : RA} {i : Nat} {b : RBlock} (h : s.mem i = some b) (f : RBlock → RBlock) :
    s.wr i f = .ok { s with mem := upd s.mem i (some (f b)) } := by
  unfold wr; rw [h]

theorem rd_ok {s : RA} {i : Nat} {b : RBlock} (h : s.mem i = some b) : s.rd i = .ok b := by
  unfold rd; rw [h]

theorem Mv_upd {s : RA} {i : Nat} {b : RBlock} :
    Mv { s with mem := upd s.mem i (some b) } = upd (Mv s) i (some (mainOf b)) := by
  funext j
  unfold Mv upd
  by_cases h : j = i <;> simp [h]

theorem Fv_upd {B bias : Nat} {s : RA} {i : Nat} {b : RBlock} :
    Fv B bias { s with mem := upd s.mem i (some b) } = upd (Fv B bias s) i (fbOf B bias b) := by
  funext j
  unfold Fv upd
  by_cases h : j = i <;> simp [h]

theorem upd_self {β : Type _} {f : Nat → β} {i : Nat} {b : β} (h : f i = b) : upd f i b = f := by
  funext j
  unfold upd
  by_cases e : j = i
  · rw [if_pos e, e, h]
  · rw [if_neg e]

theorem upd_upd {β : Type _} {f : Nat → β} {i : Nat} {b c : β} : upd (upd f i b) i c = upd f i c := by
  funext j
  unfold upd
  by_cases e : j = i <;> simp [e]

theorem wrOpt_ok {s : RA} {i : Option Nat} (f : RBlock → RBlock)
    (h : ∀ q, i = some q → ∃ b, s.mem q = some b) :
    ∃ s', s.wrOpt i f = .ok s' ∧ s'.heads = s.heads ∧ s'.st = s.st ∧ s'.pool = s.pool ∧
      s'.fresh = s.fresh ∧ ∀ j, s'.mem j = if i = some j then (s.mem j).map f else s.mem j := by
  cases i with
  | none => exact ⟨s, rfl, rfl, rfl, rfl, rfl, fun j => by simp⟩
  | some q =>
    obtain ⟨b, hb⟩ := h q rfl
    refine ⟨{ s with mem := upd s.mem q (some (f b)) }, wr_ok hb f, rfl, rfl, rfl, rfl, fun j => ?_⟩
    simp only [upd]
    by_cases e : j = q
    · subst e; simp [hb]
    · rw [if_neg e, if_neg]
      intro hh; injection hh with hh; exact e hh.symm

theorem Fv_some {B bias : Nat} {s : RA} {i : Nat} {r : FB} (h : Fv B bias s i = some r) :
    ∃ b, s.mem i = some b ∧ b.free = true ∧ r = ⟨size_to_idx B bias b.size, b.nextF, b.prevF⟩ := by
  unfold Fv at h
  cases e : s.mem i with
  | none => rw [e] at h; cases h
  | some b =>
    rw [e] at h
    simp only [Option.bind_some, fbOf] at h
    by_cases hf : b.free = true
    · rw [if_pos hf] at h; injection h with h; exact ⟨b, rfl, hf, h.symm⟩
    · rw [if_neg hf] at h; cases h

theorem Fv_of {B bias : Nat} {s : RA} {i : Nat} {b : RBlock} (h : s.mem i = some b)
    (hf : b.free = true) : Fv B bias s i = some ⟨size_to_idx B bias b.size, b.nextF, b.prevF⟩ := by
  unfold Fv; rw [h]; simp [fbOf, hf]

theorem Fv_none {B bias : Nat} {s : RA} {i : Nat} {b : RBlock} (h : s.mem i = some b)
    (hf : b.free = false) : Fv B bias s i = none := by
  unfold Fv; rw [h]; simp [fbOf, hf]

theorem size_to_idx_lt {B bias : Nat} (hB : 0 < B) (a : Nat) : size_to_idx B bias a < B := by
  unfold size_to_idx
  simp only
  split <;> exact Nat.lt_of_le_of_lt (Nat.mod_le _ _) (by omega)

theorem bkt_ok {B idx : Nat} (h : idx < B) : bucket B idx = .ok () := if_pos h

theorem remove_ok {B bias : Nat} (hB : 0 < B) {s : RA} {F : Nat → List Nat}
    (h : FreeInv (Fv B bias s) s.heads s.st.bucket_sizes F) {b : Nat} {blk : RBlock}
    (hb : s.mem b = some blk) (hf : blk.free = true) :
    ∃ s' F', remove_free_block B bias s b = .ok s' ∧
      FreeInv (Fv B bias s') s'.heads s'.st.bucket_sizes F' ∧
      Mv s' = upd (Mv s) b (some { mainOf blk with free := false }) ∧
      s'.pool = s.pool ∧ s'.fresh = s.fresh ∧
      s'.st = { s.st with bucket_sizes := s'.st.bucket_sizes } ∧
      (∃ blk', s'.mem b = some blk' ∧ mainOf blk' = { mainOf blk with free := false }) := by
  have hV := Fv_of (B := B) (bias := bias) hb hf
  generalize hidx : size_to_idx B bias blk.size = idx at hV
  have hbF : b ∈ F idx := (h.mem b idx).mpr ⟨_, hV, rfl⟩
  obtain ⟨l1, l2, hl⟩ := List.append_of_mem hbF
  have hseg := h.seg idx
  have hnd := h.nodup idx
  rw [hl] at hseg hnd
  obtain ⟨r, hr, hp, hn⟩ := Seg_get hseg
  rw [hV] at hr
  injection hr with hr
  subst hr
  simp only [Option.or_none] at hp hn
  have hbl1 : b ∉ l1 := fun hm => (List.nodup_append.mp hnd).2.2 b hm b List.mem_cons_self rfl
  have hbl2 : b ∉ l2 := (List.nodup_cons.mp (List.nodup_append.mp hnd).2.1).1
  -- the neighbours exist
  have hlive : ∀ q ∈ l1 ++ l2, ∃ qb, s.mem q = some qb ∧ qb.free = true := by
    intro q hq
    have : q ∈ F idx := by
      rw [hl]
      rcases List.mem_append.mp hq with h1 | h1
      · exact List.mem_append_left _ h1
      · exact List.mem_append_right _ (List.mem_cons_of_mem _ h1)
    obtain ⟨r, hr, _⟩ := (h.mem q idx).mp this
    obtain ⟨qb, h1, h2, _⟩ := Fv_some hr
    exact ⟨qb, h1, h2⟩
  have hne : ∀ q, q ∈ l1 ++ l2 → q ≠ b := by
    rintro q hq rfl
    rcases List.mem_append.mp hq with h1 | h1
    · exact hbl1 h1
    · exact hbl2 h1
  -- run
  unfold remove_free_block
  rw [wr_ok hb]
  simp only [bind, Except.bind]
  rw [rd_ok (upd_same _ _ _)]
  simp only
  rw [hidx, bkt_ok (hidx ▸ size_to_idx_lt hB _)]
  obtain ⟨s1, e1, a1, a2, a3, a4, a5⟩ := wrOpt_ok
    (s := { s with mem := upd s.mem b (some { blk with free := false }) })
    (i := blk.prevF) (fun x => { x with nextF := blk.nextF }) (by
      intro q hq
      rw [hp] at hq
      have hm := List.mem_append_left l2 (List.mem_of_getLast? hq)
      obtain ⟨qb, h1, _⟩ := hlive q hm
      exact ⟨qb, by simp only; rw [upd_ne _ _ (hne q hm)]; exact h1⟩)
  rw [e1]
  simp only
  obtain ⟨s2, e2, b1, b2, b3, b4, b5⟩ := wrOpt_ok (s := s1)
    (i := blk.nextF) (fun x => { x with prevF := blk.prevF }) (by
      intro q hq
      rw [hn] at hq
      have hm := List.mem_append_right l1 (List.mem_of_head? hq)
      obtain ⟨qb, h1, _⟩ := hlive q hm
      rw [a5, hp]
      have : ¬ l1.getLast? = some q := by
        intro hh
        exact (List.nodup_append.mp hnd).2.2 q (List.mem_of_getLast? hh) q
          (List.mem_cons_of_mem _ (List.mem_of_head? hq)) rfl
      rw [if_neg this]
      exact ⟨qb, by simp only; rw [upd_ne _ _ (hne q hm)]; exact h1⟩)
  rw [e2]
  simp only
  simp only at a1 a2 a3 a4
  simp only [hp, hn] at a5 b5
  have hs2b : s2.mem b = some { blk with free := false } := by
    rw [b5, if_neg, a5, if_neg]
    · rw [upd_same, hp, hn]
    · intro hh; exact hbl1 (List.mem_of_getLast? hh)
    · intro hh; exact hbl2 (List.mem_of_head? hh)
  -- the heads
  have hheads : ∀ t : RA, t.mem = s2.mem → t.heads = (if s2.heads idx = some b then
      upd s2.heads idx l2.head? else s2.heads) → ∀ j, t.heads j = (upd F idx (l1 ++ l2) j).head? := by
    intro t _ ht j
    rw [ht, b1, a1]
    by_cases hj : j = idx
    · subst hj
      rw [upd_same]
      rw [h.head j, hl]
      cases l1 with
      | nil => simp [upd_same]
      | cons c l1 =>
        have : c ≠ b := by rintro rfl; exact hbl1 List.mem_cons_self
        rw [if_neg (by simpa using this), h.head j, hl]; simp
    · rw [upd_ne _ _ hj]
      split
      · rw [upd_ne _ _ hj]; exact h.head j
      · exact h.head j
  rw [hn]
  generalize ht : (if s2.heads idx = some b then { s2 with heads := upd s2.heads idx l2.head? } else s2) = t
  have ht1 : t.mem = s2.mem := by rw [← ht]; split <;> rfl
  have ht2 : t.heads = (if s2.heads idx = some b then upd s2.heads idx l2.head? else s2.heads) := by
    rw [← ht]; split <;> rfl
  have ht3 : t.st = s2.st ∧ t.pool = s2.pool ∧ t.fresh = s2.fresh := by
    rw [← ht]; split <;> exact ⟨rfl, rfl, rfl⟩
  obtain ⟨ht3, ht4, ht5⟩ := ht3
  rw [wr_ok (s := t) (i := b) (by rw [ht1]; exact hs2b)]
  simp only
  have hmem : ∀ j, upd t.mem b (some { blk with free := false, nextF := none, prevF := none }) j =
      if j = b then some { blk with free := false, nextF := none, prevF := none }
      else (s.mem j).map (fun x => { x with
        nextF := if l1.getLast? = some j then l2.head? else x.nextF
        prevF := if l2.head? = some j then l1.getLast? else x.prevF }) := by
    intro j
    by_cases hj : j = b
    · rw [if_pos hj, hj, upd_same]
    · rw [if_neg hj, upd_ne _ _ hj, ht1, b5, a5]
      simp only [upd_ne _ _ hj]
      cases s.mem j with
      | none => simp
      | some x =>
        split <;> split <;> simp
  have hst : t.st = s.st := by rw [ht3, b2, a2]
  refine ⟨_, upd F idx (l1 ++ l2), rfl, ⟨?_, ?_, ?_, ?_, ?_⟩, ?_, ?_, ?_, ?_, ?_⟩
  · -- seg
    intro j
    have hlink : ∀ a r, a ≠ b → Fv B bias s a = some r → ∃ r',
        Fv B bias { t with
          mem := upd t.mem b (some { blk with free := false, nextF := none, prevF := none }),
          st := { t.st with
            bucket_sizes := upd t.st.bucket_sizes idx (wsub (t.st.bucket_sizes idx) 1) } } a = some r' ∧
        r'.nx = (if l1.getLast? = some a then l2.head? else r.nx) ∧
        r'.pv = (if l2.head? = some a then l1.getLast? else r.pv) := by
      intro a r hab hr
      obtain ⟨ab, q1, q2, q3⟩ := Fv_some hr
      refine ⟨_, Fv_of (b := { ab with
        nextF := (if l1.getLast? = some a then l2.head? else ab.nextF),
        prevF := if l2.head? = some a then l1.getLast? else ab.prevF }) ?_ q2, ?_, ?_⟩
      · simp only
        rw [hmem a, if_neg hab, q1]; rfl
      · rw [q3]
      · rw [q3]
    by_cases hj : j = idx
    · subst hj
      rw [upd_same]
      refine Seg_cut hseg hnd (fun a ha r hr => ?_)
      obtain ⟨r', c1, c2, c3⟩ := hlink a r (hne a ha) hr
      exact ⟨r', c1, by simpa using c2, by simpa using c3⟩
    · rw [upd_ne _ _ hj]
      refine Seg_congr (h.seg j) (fun a ha r hr => ?_)
      have hnot : a ∉ F idx := by
        intro hm
        obtain ⟨r1, u1, u2⟩ := (h.mem a j).mp ha
        obtain ⟨r2, u3, u4⟩ := (h.mem a idx).mp hm
        rw [u1] at u3; injection u3 with u3
        exact hj (by rw [← u2, u3, u4])
      rw [hl] at hnot
      simp only [List.mem_append, List.mem_cons, not_or] at hnot
      obtain ⟨r', c1, c2, c3⟩ := hlink a r hnot.2.1 hr
      refine ⟨r', c1, ?_, ?_⟩
      · rw [c2, if_neg]; intro hh; exact hnot.1 (List.mem_of_getLast? hh)
      · rw [c3, if_neg]; intro hh; exact hnot.2.2 (List.mem_of_head? hh)
  · exact hheads t ht1 ht2
  · intro j
    by_cases hj : j = idx
    · subst hj
      rw [upd_same]
      exact hnd.sublist (List.Sublist.append_left (List.sublist_cons_self _ _) _)
    · rw [upd_ne _ _ hj]; exact h.nodup j
  · -- membership
    intro i j
    have hv : Fv B bias { t with
          mem := upd t.mem b (some { blk with free := false, nextF := none, prevF := none }),
          st := { t.st with
            bucket_sizes := upd t.st.bucket_sizes idx (wsub (t.st.bucket_sizes idx) 1) } } i =
        if i = b then none else (Fv B bias s i).map (fun r => ⟨r.idx,
          if l1.getLast? = some i then l2.head? else r.nx,
          if l2.head? = some i then l1.getLast? else r.pv⟩) := by
      unfold Fv
      simp only
      rw [hmem i]
      by_cases hi : i = b
      · rw [if_pos hi, if_pos hi]; simp [fbOf]
      · rw [if_neg hi, if_neg hi]
        cases s.mem i with
        | none => rfl
        | some x =>
          simp only [Option.map_some, Option.bind_some, fbOf]
          split <;> rfl
    rw [hv]
    by_cases hi : i = b
    · subst hi
      rw [if_pos rfl]
      simp only [reduceCtorEq, false_and, exists_false, iff_false]
      by_cases hj : j = idx
      · rw [hj, upd_same, List.mem_append, not_or]; exact ⟨hbl1, hbl2⟩
      · rw [upd_ne _ _ hj, h.mem, hV]
        rintro ⟨r, e, e'⟩
        injection e with e
        exact hj (by rw [← e', ← e])
    · rw [if_neg hi]
      have : i ∈ upd F idx (l1 ++ l2) j ↔ i ∈ F j := by
        by_cases hj : j = idx
        · rw [hj, upd_same, hl]; simp [hi]
        · rw [upd_ne _ _ hj]
      rw [this, h.mem]
      cases Fv B bias s i with
      | none => simp
      | some r => simp
  · intro j
    simp only
    by_cases hj : j = idx
    · subst hj
      rw [upd_same, upd_same, hst, h.cnt, hl]
      simp only [List.length_append, List.length_cons, wsub]
      omega
    · rw [upd_ne _ _ hj, upd_ne _ _ hj, hst]; exact h.cnt j
  · funext j
    unfold Mv
    simp only
    rw [hmem j]
    unfold upd
    by_cases hj : j = b
    · rw [if_pos hj, if_pos hj]; rfl
    · rw [if_neg hj, if_neg hj]
      show _ = Option.map mainOf (s.mem j)
      cases s.mem j <;> rfl
  · simp only; rw [ht4, b3, a3]
  · simp only; rw [ht5, b4, a4]
  · simp only; rw [hst]
  · exact ⟨_, upd_same _ _ _, rfl⟩

theorem insert_ok {B bias : Nat} (hB : 0 < B) {s : RA} {F : Nat → List Nat}
    (h : FreeInv (Fv B bias s) s.heads s.st.bucket_sizes F) {b : Nat} {blk : RBlock}
    (hb : s.mem b = some blk) (hf : blk.free = false) :
    ∃ s' F', insert_free_block B bias s b = .ok s' ∧
      FreeInv (Fv B bias s') s'.heads s'.st.bucket_sizes F' ∧
      Mv s' = upd (Mv s) b (some { mainOf blk with free := true }) ∧
      s'.pool = s.pool ∧ s'.fresh = s.fresh ∧
      s'.st = { s.st with bucket_sizes := s'.st.bucket_sizes } := by
  have hV := Fv_none (B := B) (bias := bias) hb hf
  generalize hidx : size_to_idx B bias blk.size = idx
  have hbF : ∀ j, b ∉ F j := by
    intro j hm
    obtain ⟨r, e, _⟩ := (h.mem b j).mp hm
    rw [hV] at e; cases e
  have hlive : ∀ q j, q ∈ F j → ∃ qb, s.mem q = some qb ∧ qb.free = true := by
    intro q j hq
    obtain ⟨r, hr, _⟩ := (h.mem q j).mp hq
    obtain ⟨qb, h1, h2, _⟩ := Fv_some hr
    exact ⟨qb, h1, h2⟩
  unfold insert_free_block
  rw [rd_ok hb]
  simp only [bind, Except.bind]
  rw [bkt_ok (size_to_idx_lt hB _), wr_ok hb]
  simp only
  rw [hidx, h.head idx]
  obtain ⟨s1, e1, a1, a2, a3, a4, a5⟩ := wrOpt_ok
    (s := { s with mem := upd s.mem b (some { blk with free := true, prevF := none, nextF := (F idx).head? }) })
    (i := (F idx).head?) (fun x => { x with prevF := some b }) (by
      intro q hq
      have hm := List.mem_of_head? hq
      obtain ⟨qb, h1, _⟩ := hlive q _ hm
      have : q ≠ b := by rintro rfl; exact hbF _ hm
      exact ⟨qb, by simp only; rw [upd_ne _ _ this]; exact h1⟩)
  rw [e1]
  simp only
  simp only at a1 a2 a3 a4
  have hmem : ∀ j, s1.mem j =
      if j = b then some { blk with free := true, prevF := none, nextF := (F idx).head? }
      else (s.mem j).map (fun x => { x with
        prevF := if (F idx).head? = some j then some b else x.prevF }) := by
    intro j
    rw [a5]
    by_cases hj : j = b
    · rw [if_pos hj, if_neg, hj]
      · exact upd_same _ _ _
      · rw [hj]; intro hh; exact hbF _ (List.mem_of_head? hh)
    · rw [if_neg hj]
      simp only [upd_ne _ _ hj]
      cases s.mem j with
      | none => simp
      | some x => split <;> simp
  have hv : ∀ i, Fv B bias { s1 with
        heads := upd s1.heads idx (some b),
        st := { s1.st with bucket_sizes := upd s1.st.bucket_sizes idx (wadd (s1.st.bucket_sizes idx) 1) } } i =
      if i = b then some ⟨idx, (F idx).head?, none⟩ else (Fv B bias s i).map (fun r => ⟨r.idx, r.nx,
        if (F idx).head? = some i then some b else r.pv⟩) := by
    intro i
    unfold Fv
    simp only
    rw [hmem i]
    by_cases hi : i = b
    · rw [if_pos hi, if_pos hi]; simp [fbOf, hidx]
    · rw [if_neg hi, if_neg hi]
      cases s.mem i with
      | none => rfl
      | some x =>
        simp only [Option.map_some, Option.bind_some, fbOf]
        split <;> rfl
  refine ⟨_, upd F idx (b :: F idx), rfl, ⟨?_, ?_, ?_, ?_, ?_⟩, ?_, ?_, ?_, ?_⟩
  · intro j
    by_cases hj : j = idx
    · subst hj
      rw [upd_same]
      refine ⟨⟨⟨j, (F j).head?, none⟩, by rw [hv, if_pos rfl], rfl, by simp⟩, ?_⟩
      refine Seg_rehead (h.seg j) (h.nodup j) (fun a ha r hr => ?_)
      have hab : a ≠ b := by rintro rfl; exact hbF _ ha
      exact ⟨⟨r.idx, r.nx, if (F j).head? = some a then some b else r.pv⟩,
        by rw [hv, if_neg hab, hr]; rfl, rfl, rfl⟩
    · rw [upd_ne _ _ hj]
      refine Seg_congr (h.seg j) (fun a ha r hr => ?_)
      have hab : a ≠ b := by rintro rfl; exact hbF _ ha
      refine ⟨⟨r.idx, r.nx, if (F idx).head? = some a then some b else r.pv⟩,
        by rw [hv, if_neg hab, hr]; rfl, rfl, ?_⟩
      simp only
      rw [if_neg]
      intro hh
      obtain ⟨r1, u1, u2⟩ := (h.mem a j).mp ha
      obtain ⟨r2, u3, u4⟩ := (h.mem a idx).mp (List.mem_of_head? hh)
      rw [u1] at u3; injection u3 with u3
      exact hj (by rw [← u2, u3, u4])
  · intro j
    simp only
    rw [a1]
    by_cases hj : j = idx
    · rw [hj, upd_same, upd_same]; rfl
    · rw [upd_ne _ _ hj, upd_ne _ _ hj]; exact h.head j
  · intro j
    by_cases hj : j = idx
    · rw [hj, upd_same, List.nodup_cons]; exact ⟨hbF _, h.nodup _⟩
    · rw [upd_ne _ _ hj]; exact h.nodup j
  · intro i j
    rw [hv]
    by_cases hi : i = b
    · subst hi
      rw [if_pos rfl]
      by_cases hj : j = idx
      · rw [hj, upd_same]; simp
      · rw [upd_ne _ _ hj]
        constructor
        · intro hm; exact absurd hm (hbF j)
        · rintro ⟨r, e, e'⟩
          injection e with e
          exact absurd (by rw [← e', ← e]) hj
    · rw [if_neg hi]
      have : i ∈ upd F idx (b :: F idx) j ↔ i ∈ F j := by
        by_cases hj : j = idx
        · rw [hj, upd_same]; simp [hi]
        · rw [upd_ne _ _ hj]
      rw [this, h.mem]
      cases Fv B bias s i with
      | none => simp
      | some r => simp
  · intro j
    simp only
    rw [a2]
    by_cases hj : j = idx
    · subst hj
      rw [upd_same, upd_same, h.cnt]
      simp only [List.length_cons, wadd]
      omega
    · rw [upd_ne _ _ hj, upd_ne _ _ hj]; exact h.cnt j
  · funext j
    unfold Mv
    simp only
    rw [hmem j]
    unfold upd
    by_cases hj : j = b
    · rw [if_pos hj, if_pos hj]; rfl
    · rw [if_neg hj, if_neg hj]
      show _ = Option.map mainOf (s.mem j)
      cases s.mem j <;> rfl
  · simp only; rw [a3]
  · simp only; rw [a4]
  · simp only; rw [a2]

end Rpp.RA
