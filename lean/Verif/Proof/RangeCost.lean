import Verif.Model.RangeCost
import Verif.Spec.RangeCost
import Verif.Proof.RangeRun
import Verif.Proof.RangeTotals

/-! The search as a search of a list. -/

namespace Rpp.RA
open Rpp Rpp.Spec

variable {B bias cap : Nat} {s : RA} {L : List Nat}

/-- The padding with which a block will do, if it does. -/
def fitAt (s : RA) (size align b : Nat) : Option Nat :=
  match s.mem b with
  | none => none
  | some blk =>
    match Math.align 64 blk.start align with
    | .error _ => none
    | .ok a => if blk.size ≥ wadd size (wsub a blk.start) then some (wsub a blk.start) else none

/-- The search over a list of blocks. -/
def scan (s : RA) (size align : Nat) : Nat → List Nat → Res (Option (Nat × Nat))
  | 0, _ => .error .hang
  | _ + 1, [] => .ok none
  | f + 1, b :: t =>
    match fitAt s size align b with
    | some pad => .ok (some (b, pad))
    | none => scan s size align f t

theorem fitAt_some {size align b pad : Nat} {blk : RBlock} (hm : s.mem b = some blk) (hsz : size + align ≤ 2 ^ 64)
    (ha : 0 < align) (hb : blk.start + blk.size < 2 ^ 64) (h : fitAt s size align b = some pad) : Fits blk size align pad := by
  obtain ⟨pd, p1, p2, p3, p4, p5⟩ := padding_ok (start := blk.start) ha (by omega) (by omega)
  unfold fitAt at h
  rw [hm] at h
  simp only [p1, p2] at h
  have hw : wadd size pd = size + pd := by unfold wadd; omega
  rw [hw] at h
  split at h
  · rename_i hfit; cases h; exact ⟨p4, hfit, p3⟩
  · cases h

theorem fitAt_none {size align b : Nat} {blk : RBlock} (hm : s.mem b = some blk) (hsz : size + align ≤ 2 ^ 64)
    (ha : 0 < align) (hb : blk.start + blk.size < 2 ^ 64) (h : fitAt s size align b = none) :
    NoFit blk size align ∧ blk.size < size + (align - 1) := by
  obtain ⟨pd, p1, p2, p3, p4, p5⟩ := padding_ok (start := blk.start) ha (by omega) (by omega)
  unfold fitAt at h
  rw [hm] at h
  simp only [p1, p2] at h
  have hw : wadd size pd = size + pd := by unfold wadd; omega
  rw [hw] at h
  split at h
  · cases h
  · rename_i hfit
    refine ⟨fun o h1 h2 h3 => ?_, by omega⟩
    have := p5 o h1 h2
    omega

theorem search_scan (hB : B < 256) {F : Nat → List Nat} (h : FreeInv (Fv B bias s) s.heads s.st.bucket_sizes F)
    {size align : Nat} (hsz : size + align ≤ 2 ^ 64) (ha : 0 < align)
    (hbd : ∀ i b, s.mem i = some b → b.start + b.size < 2 ^ 64) :
    ∀ fuel (l : List Nat) idx n, (∃ pre, F idx = pre ++ l) → idx + n = B - 1 → (l = [] → n = 0) →
      search B s size align fuel l.head? idx = scan s size align fuel (l ++ rest F n idx) := by
  intro fuel
  induction fuel with
  | zero => intros; rfl
  | succ f ih =>
    intro l idx n hpre hn hl
    cases l with
    | nil =>
      have : n = 0 := hl rfl
      subst this
      rfl
    | cons b l =>
      obtain ⟨pre, hpre⟩ := hpre
      have hseg := h.seg idx
      rw [hpre] at hseg
      obtain ⟨r, hr, _, hnx⟩ := Seg_get hseg
      obtain ⟨blk, q1, q2, q3⟩ := Fv_some hr
      rw [q3] at hnx
      simp only [Option.or_none] at hnx
      have hb := hbd b blk q1
      obtain ⟨pad, p1, p2, p3, p4, p5⟩ := padding_ok (start := blk.start) ha (by omega) (by omega)
      simp only [List.head?_cons, search, rd_ok q1, bind, Except.bind, p1, p2, List.cons_append, scan]
      have hf : fitAt s size align b = if blk.size ≥ wadd size pad then some pad else none := by
        unfold fitAt; rw [q1]; simp only [p1, p2]
      rw [hf]
      by_cases hfit : blk.size ≥ wadd size pad
      · rw [if_pos hfit, if_pos hfit]; rfl
      · rw [if_neg hfit, if_neg hfit, hnx]
        obtain ⟨l', idx', n', a1, a2, a3, a4, a5⟩ := advance_spec h hB (B - 1 - idx) idx l 257
          (by omega) (by omega)
        rw [a1]
        dsimp only
        have hnn : B - 1 - idx = n := by omega
        rw [hnn] at a2 a3
        have hpre' : ∃ pre, F idx' = pre ++ l' := by
          rcases a5 with ⟨e1, e2⟩ | e
          · exact ⟨pre ++ [b], by rw [e1, e2, hpre]; simp⟩
          · exact ⟨[], by rw [e]; rfl⟩
        rw [ih l' idx' n' hpre' (by omega) a4, a3]

/-- If all from position `n` on will do, `n + 1` turns are enough. -/
theorem scan_within {size align : Nat} : ∀ (n : Nat) (t : List Nat),
    (∀ i b, n ≤ i → t[i]? = some b → fitAt s size align b ≠ none) →
    ∃ x, Within (n + 1) (fun f => scan s size align f t) x := by
  intro n
  induction n with
  | zero =>
    intro t h
    cases t with
    | nil =>
      refine ⟨none, fun f hf => ?_⟩
      obtain ⟨f, rfl⟩ : ∃ k, f = k + 1 := ⟨f - 1, by omega⟩
      rfl
    | cons b t =>
      obtain ⟨pad, hp⟩ := Option.ne_none_iff_exists'.mp (h 0 b (Nat.le_refl _) rfl)
      refine ⟨some (b, pad), fun f hf => ?_⟩
      obtain ⟨f, rfl⟩ : ∃ k, f = k + 1 := ⟨f - 1, by omega⟩
      simp only [scan, hp]
  | succ n ih =>
    intro t h
    cases t with
    | nil =>
      refine ⟨none, fun f hf => ?_⟩
      obtain ⟨f, rfl⟩ : ∃ k, f = k + 1 := ⟨f - 1, by omega⟩
      rfl
    | cons b t =>
      cases hp : fitAt s size align b with
      | some pad =>
        refine ⟨some (b, pad), fun f hf => ?_⟩
        obtain ⟨f, rfl⟩ : ∃ k, f = k + 1 := ⟨f - 1, by omega⟩
        simp only [scan, hp]
      | none =>
        obtain ⟨x, hx⟩ := ih t (fun i c hi hc => h (i + 1) c (by omega) (by simpa using hc))
        refine ⟨x, fun f hf => ?_⟩
        obtain ⟨f, rfl⟩ : ∃ k, f = k + 1 := ⟨f - 1, by omega⟩
        simp only [scan, hp]
        exact hx f (by omega)

/-- What is found is the first that will do. -/
theorem scan_first {size align : Nat} : ∀ (f : Nat) (t : List Nat) {b pad : Nat}, scan s size align f t = .ok (some (b, pad)) →
    ∃ pre post, t = pre ++ b :: post ∧ fitAt s size align b = some pad ∧ ∀ c ∈ pre, fitAt s size align c = none := by
  intro f
  induction f with
  | zero => intro t b pad h; cases h
  | succ f ih =>
    intro t b pad h
    cases t with
    | nil => cases h
    | cons c t =>
      cases hp : fitAt s size align c with
      | some q =>
        simp only [scan, hp] at h
        cases h
        exact ⟨[], t, rfl, hp, by simp⟩
      | none =>
        simp only [scan, hp] at h
        obtain ⟨pre, post, e1, e2, e3⟩ := ih t h
        refine ⟨c :: pre, post, by rw [e1]; rfl, e2, fun d hd => ?_⟩
        rcases List.mem_cons.mp hd with rfl | hd
        · exact hp
        · exact e3 d hd

/-- More turns do not change what is found. -/
theorem scan_more {size align : Nat} : ∀ {f f' : Nat} {t : List Nat} {x : Option (Nat × Nat)}, f ≤ f' →
    scan s size align f t = .ok x → scan s size align f' t = .ok x := by
  intro f
  induction f with
  | zero => intro f' t x _ h; cases h
  | succ f ih =>
    intro f' t x hf h
    obtain ⟨f', rfl⟩ : ∃ k, f' = k + 1 := ⟨f' - 1, by omega⟩
    cases t with
    | nil => exact h
    | cons c t =>
      cases hp : fitAt s size align c with
      | some q => simp only [scan, hp] at h ⊢; exact h
      | none => simp only [scan, hp] at h ⊢; exact ih (by omega) h

/-- The bucket a block belongs in. -/
def cls (B bias : Nat) (s : RA) (b : Nat) : Nat := (s.mem b).elim 0 fun blk => size_to_idx B bias blk.size

theorem cls_of {F : Nat → List Nat} (h : FreeInv (Fv B bias s) s.heads s.st.bucket_sizes F) {j b : Nat} (hb : b ∈ F j) :
    cls B bias s b = j ∧ ∃ blk, s.mem b = some blk ∧ blk.free = true := by
  obtain ⟨r, hr, hj⟩ := (h.mem b j).mp hb
  obtain ⟨blk, q1, q2, q3⟩ := Fv_some hr
  refine ⟨?_, blk, q1, q2⟩
  unfold cls; rw [q1, ← hj, q3]; rfl

theorem sorted_rest {F : Nat → List Nat} (h : FreeInv (Fv B bias s) s.heads s.st.bucket_sizes F) : ∀ n idx,
    (F idx ++ rest F n idx).Pairwise (fun a b => cls B bias s a ≤ cls B bias s b) := by
  have own : ∀ idx, (F idx).Pairwise (fun a b => cls B bias s a ≤ cls B bias s b) := by
    intro idx
    refine List.pairwise_of_forall_mem_list (fun a ha b hb => ?_)
    rw [(cls_of h ha).1, (cls_of h hb).1]
  intro n
  induction n with
  | zero => intro idx; simp only [rest, List.append_nil]; exact own idx
  | succ n ih =>
    intro idx
    rw [List.pairwise_append]
    refine ⟨own idx, ih (idx + 1), fun a ha b hb => ?_⟩
    obtain ⟨j, h1, h2, h3⟩ := (mem_rest (n + 1) idx).mp hb
    rw [(cls_of h ha).1, (cls_of h h3).1]
    omega

theorem sorted_after {c : Nat → Nat} {k : Nat} : ∀ (t : List Nat), t.Pairwise (fun a b => c a ≤ c b) →
    ∀ i b, (t.filter (fun a => c a ≤ k)).length ≤ i → t[i]? = some b → k < c b := by
  intro t
  induction t with
  | nil => intro _ i b _ h; cases h
  | cons a t ih =>
    intro hp i b hi h
    rw [List.pairwise_cons] at hp
    by_cases ha : c a ≤ k
    · rw [List.filter_cons_of_pos (by simpa using ha), List.length_cons] at hi
      obtain ⟨i, rfl⟩ : ∃ m, i = m + 1 := ⟨i - 1, by omega⟩
      exact ih hp.2 i b (by omega) (by simpa using h)
    · cases i with
      | zero => simp at h; subst h; omega
      | succ i =>
        have := hp.1 b (List.mem_of_getElem? (by simpa using h))
        omega

/-- A block of a higher class has more positions. -/
theorem class_lt {n m : Nat} (hn : 0 < n) (hn' : n < 2 ^ 64) (hm : 0 < m) (hm' : m < 2 ^ 64)
    (h : size_to_idx B bias n < size_to_idx B bias m) : n < m := by
  rcases Nat.lt_or_ge n m with h1 | h1
  · exact h1
  · have := size_to_idx_mono (B := B) (bias := bias) hm h1 hn'
    omega

/-- What the search makes of the free lists: an ordered list with all the blocks that could do. -/
theorem look_list (hB : 0 < B ∧ B < 256) (hcap : cap < 2 ^ 64) (h : Inv B bias cap s L) {size align : Nat}
    (h0 : 0 < size) (ha : 0 < align) (hsz : size + align ≤ 2 ^ 64) :
    ∃ t : List Nat, (∀ turns, 0 < turns → lookIn B bias s size align turns = scan s size align turns t) ∧ t.Nodup ∧
      t.Pairwise (fun a b => cls B bias s a ≤ cls B bias s b) ∧
      ∀ b, b ∈ t ↔ ∃ blk, s.mem b = some blk ∧ blk.free = true ∧ size_to_idx B bias size ≤ size_to_idx B bias blk.size := by
  obtain ⟨F, hF⟩ := h.free
  have hmemF : ∀ b blk, s.mem b = some blk → blk.free = true →
      b ∈ F (size_to_idx B bias blk.size) := fun b blk h1 h2 =>
    (hF.mem b _).mpr ⟨_, Fv_of h1 h2, rfl⟩
  have hi0 := size_to_idx_lt (bias := bias) hB.1 size
  unfold lookIn
  generalize hidx0 : size_to_idx B bias size = idx0 at *
  obtain ⟨idx, hfb, f1, f2, f3, f4⟩ := firstBucket_spec (heads := s.heads) hB.2 257 idx0 (by omega) (by omega)
  simp only [hfb, bind, Except.bind]
  have hempty : ∀ j, idx0 ≤ j → j < idx → F j = [] := by
    intro j h1 h2
    have := f3 j h1 h2
    rw [hF.head] at this
    simpa using this
  by_cases hB2 : idx = B
  · refine ⟨[], fun turns ht => ?_, List.nodup_nil, List.Pairwise.nil, fun b => ?_⟩
    · rw [if_pos hB2]
      obtain ⟨k, rfl⟩ : ∃ k, turns = k + 1 := ⟨turns - 1, by omega⟩
      rfl
    · constructor
      · intro hb; cases hb
      · rintro ⟨blk, q1, q2, q3⟩
        have hm := hmemF b blk q1 q2
        rw [hempty _ q3 (by have := size_to_idx_lt (bias := bias) hB.1 blk.size; omega)] at hm
        exact hm
  · refine ⟨F idx ++ rest F (B - 1 - idx) idx, fun turns _ => ?_, nodup_rest hF _ _, sorted_rest hF _ _, fun b => ?_⟩
    · rw [if_neg hB2, bkt_ok (by omega), hF.head idx]
      have hne : F idx ≠ [] := by
        intro hne
        have := f4 (by omega)
        rw [hF.head, hne] at this
        exact this rfl
      exact search_scan hB.2 hF hsz ha (fun i b hb => by have := h.bound i b hb; omega) turns (F idx) idx
        (B - 1 - idx) ⟨[], rfl⟩ (by omega) (fun e => absurd e hne)
    · constructor
      · intro hb
        have : ∃ j, idx ≤ j ∧ b ∈ F j := by
          rcases List.mem_append.mp hb with hb | hb
          · exact ⟨idx, Nat.le_refl _, hb⟩
          · obtain ⟨j, h1, _, h3⟩ := (mem_rest _ _).mp hb
            exact ⟨j, by omega, h3⟩
        obtain ⟨j, hj, hbj⟩ := this
        obtain ⟨c1, blk, c2, c3⟩ := cls_of hF hbj
        refine ⟨blk, c2, c3, ?_⟩
        unfold cls at c1; rw [c2] at c1
        simp only [Option.elim] at c1
        omega
      · rintro ⟨blk, q1, q2, q3⟩
        have hm := hmemF b blk q1 q2
        have hltB := size_to_idx_lt (bias := bias) hB.1 blk.size
        by_cases hlt2 : size_to_idx B bias blk.size < idx
        · rw [hempty _ q3 hlt2] at hm; cases hm
        · by_cases heq : size_to_idx B bias blk.size = idx
          · rw [heq] at hm; exact List.mem_append_left _ hm
          · exact List.mem_append_right _ ((mem_rest _ _).mpr ⟨_, by omega, by omega, hm⟩)

/-- The blocks of the list up to a class are some of the gaps of these classes. -/
theorem count_le {t : List Nat} (hcap : cap < 2 ^ 64) (hi : Inv B bias cap s L) (hnd : t.Nodup) {lo hi' : Nat}
    (hm : ∀ b ∈ t, ∃ blk, s.mem b = some blk ∧ blk.free = true ∧ lo ≤ size_to_idx B bias blk.size) :
    (t.filter (fun a => cls B bias s a ≤ hi')).length ≤ ofClasses B bias lo hi' (gapsOf (Mv s) L) := by
  unfold ofClasses
  rw [gapsOf_eq, List.filter_map, List.length_map, List.filter_filter]
  refine (List.subperm_of_subset (hnd.filter _) fun a ha => ?_).length_le
  obtain ⟨h1, h2⟩ := List.mem_filter.mp ha
  obtain ⟨blk, q1, q2, q3⟩ := hm a h1
  have hb := hi.bound a blk q1
  rw [List.mem_filter]
  refine ⟨(hi.main.dom a).mp ⟨_, Mv_of q1⟩, ?_⟩
  have h2 : cls B bias s a ≤ hi' := of_decide_eq_true h2
  unfold cls at h2
  rw [q1] at h2
  have h2 : size_to_idx B bias blk.size ≤ hi' := h2
  rw [sizeClass_eq (by omega) (by omega)] at h2 q3
  simp [Mv_of q1, mainOf, fr, q2, h2, q3]

theorem look_within (hB : 0 < B ∧ B < 256) (hcap : cap < 2 ^ 64) (hi : Inv B bias cap s L) {size align : Nat}
    (h0 : 0 < size) (ha : 0 < align) (hsz : size + align ≤ 2 ^ 64) :
    ∃ x, Within (ofClasses B bias (sizeClass B bias size) (sizeClass B bias (size + (align - 1))) (gapsOf (Mv s) L) + 1)
      (lookIn B bias s size align) x := by
  obtain ⟨t, e, hnd, hs, hm⟩ := look_list hB hcap hi h0 ha hsz
  have hc := count_le (hi' := sizeClass B bias (size + (align - 1))) hcap hi hnd (fun b hb => (hm b).mp hb)
  rw [sizeClass_eq h0 (by omega)] at hc
  obtain ⟨x, hx⟩ := scan_within (s := s) (size := size) (align := align) _ t fun i b h1 h2 h3 => by
    have hcl := sorted_after t hs i b (Nat.le_trans hc h1) h2
    obtain ⟨blk, q1, q2, q3⟩ := (hm b).mp (List.mem_of_getElem? h2)
    have hb := hi.bound b blk q1
    have := (fitAt_none q1 hsz ha (by omega) h3).2
    unfold cls at hcl
    rw [q1] at hcl
    simp only [Option.elim] at hcl
    rw [← sizeClass_eq (by omega) (by omega)] at hcl
    have := class_lt (by omega) (by omega) (by omega) (by omega) hcl
    omega
  exact ⟨x, fun f hf => by rw [e f (by omega)]; exact hx f hf⟩

/-- `allocate` in terms of its search. -/
theorem allocate_look {size align : Nat} {s' : RA} {o : Option Nat} (h : allocate B bias s size align = .ok (s', o)) :
    ∃ x, lookIn B bias s size align (s.fresh + 1) = .ok x ∧ o = x.map Prod.fst := by
  unfold allocate at h
  unfold lookIn
  by_cases hz : size = 0 ∨ align = 0
  · rw [if_pos hz] at h; cases h
  · rw [if_neg hz] at h
    simp only [bind, Except.bind] at h ⊢
    cases hf : firstBucket B s.heads 257 (size_to_idx B bias size) with
    | error e => rw [hf] at h; cases h
    | ok idx =>
      simp only [hf] at h ⊢
      by_cases hi : idx = B
      · rw [if_pos hi] at h ⊢
        cases h
        exact ⟨none, rfl, rfl⟩
      · rw [if_neg hi] at h ⊢
        cases hb : bucket B idx with
        | error e => simp [hb] at h
        | ok u =>
          simp only [hb] at h ⊢
          cases hx : search B s size align (s.fresh + 1) (s.heads idx) idx with
          | error e => simp [hx] at h
          | ok x =>
            simp only [hx] at h
            refine ⟨x, rfl, ?_⟩
            cases x with
            | none => cases h; rfl
            | some q =>
              obtain ⟨b, pad⟩ := q
              simp only at h
              cases ht : s.take B bias b size pad with
              | error e => simp [ht] at h
              | ok s2 => simp only [ht] at h; cases h; rfl

/-- The block that is taken is of the lowest class in which one will do. -/
theorem take_least (hB : 0 < B ∧ B < 256) (hcap : cap < 2 ^ 64) (hi : Inv B bias cap s L) {size align : Nat}
    (h0 : 0 < size) (ha : 0 < align) (hsz : size + align ≤ 2 ^ 64) {s' : RA} {b : Nat}
    (h : allocate B bias s size align = .ok (s', some b)) :
    ∃ blk, s.mem b = some blk ∧ blk.free = true ∧ ∀ a q, s.mem a = some q → q.free = true →
      HasRoom size align (q.start, q.size) → sizeClass B bias blk.size ≤ sizeClass B bias q.size := by
  obtain ⟨t, e, hnd, hs, hm⟩ := look_list hB hcap hi h0 ha hsz
  obtain ⟨x, hx, ho⟩ := allocate_look h
  rw [e _ (by omega)] at hx
  cases x with
  | none => cases ho
  | some p =>
    obtain ⟨b2, pad⟩ := p
    cases ho
    obtain ⟨pre, post, e1, e2, e3⟩ := scan_first _ _ hx
    have hbt : b2 ∈ t := by rw [e1]; simp
    obtain ⟨blk, q1, q2, q3⟩ := (hm b2).mp hbt
    have hb := hi.bound b2 blk q1
    refine ⟨blk, q1, q2, fun a q a1 a2 ⟨o, r1, r2, r3⟩ => ?_⟩
    dsimp only at r2 r3
    have hq := hi.bound a q a1
    have hat : a ∈ t := (hm a).mpr ⟨q, a1, a2, size_to_idx_mono (by omega) (by omega) (by omega)⟩
    rw [← sizeClass_eq (by omega) (by omega), ← sizeClass_eq (by omega) (by omega)]
    rw [e1, List.mem_append, List.mem_cons] at hat
    rcases hat with hat | rfl | hat
    · exact absurd r3 (by have := (fitAt_none a1 hsz ha (by omega) (e3 a hat)).1 o r1 r2; omega)
    · rw [q1] at a1; cases a1; exact Nat.le_refl _
    · rw [e1, List.pairwise_append, List.pairwise_cons] at hs
      have := hs.2.1.1 a hat
      unfold cls at this
      rw [q1, a1] at this
      exact this

end Rpp.RA
