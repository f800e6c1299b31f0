import Verif.Model.Queue
import Verif.Proof.Vec

/-! Representation invariant of `Queue` and the effect of each operation on it. -/

namespace Rpp
variable {α : Type _}

namespace Queue

/-- Position of the `k`-th element in the ring. -/
def slot (q : Queue) (k : Nat) : Nat :=
  if q.last + k < q.len then q.last + k + q.cap - q.len else q.last + k - q.len

/-- The words of the queue are sensible. -/
structure Ok (q : Queue) : Prop where
  cap0 : 0 < q.cap
  capM : q.cap ≤ 2 ^ 63
  last : q.last < q.cap
  len : q.len ≤ q.cap

/-- Ring buffer contents: the elements `l` at their slots, raw storage elsewhere. -/
structure Ring (T : Traits) (q : Queue) (b : Buf α) (l : List α) : Prop where
  size : b.length = q.cap
  elem : ∀ k (hk : k < l.length), b[slot q k]? = some (some l[k])
  raw : T.triv = true ∨ ∀ i, i < q.cap → (∀ k, k < q.len → slot q k ≠ i) → b[i]? = some none

/-- `q` holds exactly the elements `l`. -/
def Rep (T : Traits) (h : Heap α) (q : Queue) (l : List α) : Prop :=
  q.len = l.length ∧
  match q.data with
  | none => q.cap = 0 ∧ q.last = 0 ∧ l = []
  | some id => id < h.next ∧ q.Ok ∧ ∃ b : Buf α, h.blk id = some b ∧ Ring T q b l

theorem startIdx_eq {q : Queue} (o : q.Ok) (h : 0 < q.len) : startIdx q = slot q 0 := by
  have h1 := o.cap0; have h2 := o.capM; have h3 := o.last; have h4 := o.len
  unfold startIdx slot
  by_cases hc : q.last < q.len
  · have e : wsub q.last q.len = 2 ^ 64 + q.last - q.len := by simp only [wsub]; omega
    have e' : wadd (wsub q.last q.len) q.cap = q.last + q.cap - q.len := by
      rw [e]; simp only [wadd]; omega
    rw [if_pos (show wsub q.last q.len ≥ q.cap by omega), if_pos (show q.last + 0 < q.len by omega), e']
    omega
  · have e : wsub q.last q.len = q.last - q.len := by simp only [wsub]; omega
    rw [if_neg (show ¬ wsub q.last q.len ≥ q.cap by omega),
      if_neg (show ¬ q.last + 0 < q.len by omega), e]
    omega

theorem idxAt_eq {q : Queue} (o : q.Ok) {k : Nat} (h : k < q.len) : idxAt q k = slot q k := by
  have h1 := o.cap0; have h2 := o.capM; have h3 := o.last; have h4 := o.len
  unfold idxAt slot
  by_cases hc : q.last + k < q.len
  · have e : wadd (wsub q.last q.len) k = 2 ^ 64 + q.last - q.len + k := by
      simp only [wsub, wadd]; omega
    have e' : wadd (wadd (wsub q.last q.len) k) q.cap = q.last + k + q.cap - q.len := by
      rw [e]; simp only [wadd]; omega
    rw [if_pos (show wadd (wsub q.last q.len) k ≥ q.cap by omega), if_pos hc, e']
  · have e : wadd (wsub q.last q.len) k = q.last + k - q.len := by simp only [wsub, wadd]; omega
    rw [if_neg (show ¬ wadd (wsub q.last q.len) k ≥ q.cap by omega), if_neg hc, e]

theorem index_eq {q : Queue} (o : q.Ok) {k : Nat} (h : k < q.len) : index q k = slot q k := by
  have h1 := o.cap0; have h2 := o.capM; have h3 := o.last; have h4 := o.len
  have hs : slot q 0 < q.cap := by simp only [slot]; split <;> omega
  have e : wadd k (startIdx q) = k + slot q 0 := by
    rw [startIdx_eq o (by omega)]; simp only [wadd]; omega
  have e' : k + slot q 0 ≥ q.cap → wsub (k + slot q 0) q.cap = k + slot q 0 - q.cap := by
    intro _; simp only [wsub]; omega
  have hv : slot q k = if k + slot q 0 ≥ q.cap then k + slot q 0 - q.cap else k + slot q 0 := by
    simp only [slot]; split <;> split <;> split <;> omega
  rw [hv]
  unfold index
  simp only [e]
  by_cases hc : k + slot q 0 ≥ q.cap
  · rw [if_pos hc, if_pos hc, e' hc]
  · rw [if_neg hc, if_neg hc]

theorem endIdx_eq {q : Queue} (o : q.Ok) (h : 0 < q.len) : endIdx q = slot q (q.len - 1) := by
  have h1 := o.cap0; have h2 := o.capM; have h3 := o.last; have h4 := o.len
  simp only [endIdx, slot]
  split
  · omega
  · split <;> split <;> omega

theorem slot_lt {q : Queue} (o : q.Ok) {k : Nat} (h : k < q.len) : slot q k < q.cap := by
  have h3 := o.last; have h4 := o.len
  simp only [slot]; split <;> omega

theorem slot_inj {q : Queue} (o : q.Ok) {j k : Nat} (hj : j < q.len) (hk : k < q.len)
    (e : slot q j = slot q k) : j = k := by
  have h3 := o.last; have h4 := o.len
  simp only [slot] at e; split at e <;> split at e <;> omega

theorem Rep.lt {T : Traits} {h : Heap α} {q : Queue} {l : List α} (r : Rep T h q l) :
    ∀ j, q.data = some j → j < h.next := by
  intro j hj; simp only [Rep, hj] at r; exact r.2.1

theorem Rep.nil (T : Traits) (h : Heap α) : Rep T h Queue.nil ([] : List α) := by
  simp [Rep, Queue.nil]

theorem Rep.len_le {T : Traits} {h : Heap α} {v : Queue} {l : List α} (r : Rep T h v l) :
    v.len ≤ v.cap := by
  obtain ⟨h1, h2⟩ := r
  cases hd : v.data with
  | none => simp only [hd] at h2; simp [h2.2.2] at h1; omega
  | some id => simp only [hd] at h2; exact h2.2.1.len

theorem Rep.congr {T : Traits} {h h' : Heap α} {v : Queue} {l : List α} (r : Rep T h v l)
    (hn : h.next ≤ h'.next) (hb : ∀ j, v.data = some j → h'.blk j = h.blk j) : Rep T h' v l := by
  obtain ⟨h1, h2⟩ := r
  refine ⟨h1, ?_⟩
  cases hd : v.data with
  | none => simpa only [hd] using h2
  | some id =>
    simp only [hd] at h2 ⊢
    rw [hb id hd]
    exact ⟨by omega, h2.2⟩

/-- A queue with elements has a buffer. -/
theorem Rep.buf {T : Traits} {h : Heap α} {q : Queue} {l : List α} (r : Rep T h q l) (hl : l ≠ []) :
    ∃ id b, q.data = some id ∧ id < h.next ∧ q.Ok ∧ h.blk id = some b ∧ Ring T q b l := by
  obtain ⟨h1, h2⟩ := r
  cases hd : q.data with
  | none => simp only [hd] at h2; exact absurd h2.2.2 hl
  | some id =>
    simp only [hd] at h2
    obtain ⟨a, o, b, e, rg⟩ := h2
    exact ⟨id, b, rfl, a, o, e, rg⟩

theorem wp_withCapacity {O : Prop} {T : Traits} {n : Nat} {h : Heap α} (hm : h.lim ≤ 2 ^ 63)
    (hO : h.lim < n → O) :
    wp O (withCapacity n) h (fun v h' => Rep T h' v [] ∧ Frame h none h' v.data ∧ v.cap = n) := by
  unfold withCapacity
  rw [wp_bind]
  by_cases hn : n = 0
  · subst hn
    refine wp_ok (alloc_zero h) ?_
    rw [wp_pure]
    exact ⟨by simp [Rep], Frame.refl _ _, rfl⟩
  · refine wp_alloc (by omega) hO ?_
    intro hl
    rw [wp_pure]
    refine ⟨?_, ?_, rfl⟩
    · simp only [Rep, List.length_nil, true_and]
      refine ⟨by simp, ⟨by simp; omega, by simp; omega, by simp; omega, by simp⟩,
        List.replicate n none, by simp [afterAlloc_blk], by simp, by simp, Or.inr ?_⟩
      intro i hi _
      simp at hi
      simp [hi]
    · refine ⟨by simp, by simp, ?_, Or.inr ⟨?_, by simp⟩⟩
      · intro j _ hj
        rw [afterAlloc_blk, if_neg]
        intro e; exact hj (by simp [e])
      · intro j hj; simp at hj; subst hj; simp

/-- A linear stretch of the ring. -/
theorem Ring.stretch {T : Traits} {q : Queue} {b : Buf α} {l : List α} (r : Ring T q b l)
    {s k n : Nat} (hn : k + n ≤ l.length) (hs : ∀ j, j < n → slot q (k + j) = s + j) :
    (b.drop s).take n = ((l.drop k).take n).map some := by
  apply List.ext_getElem?
  intro i
  by_cases hi : i < n
  · rw [List.getElem?_take, if_pos hi, List.getElem?_drop, ← hs i hi,
      r.elem (k + i) (by omega), List.getElem?_map, List.getElem?_take, if_pos hi,
      List.getElem?_drop, List.getElem?_eq_getElem (by omega)]
    rfl
  · rw [List.getElem?_take, if_neg hi, List.getElem?_map, List.getElem?_take, if_neg hi]; rfl

theorem split3 {β : Type _} (b : List β) (s n : Nat) :
    b = b.take s ++ (b.drop s).take n ++ b.drop (s + n) := by
  conv => lhs; rw [← List.take_append_drop s b, ← List.take_append_drop n (b.drop s)]
  rw [List.drop_drop, List.append_assoc]

/-- The fresh buffer after the elements have been transferred. -/
theorem rep_fresh {T : Traits} {h : Heap α} {q : Queue} {l : List α} {n id : Nat}
    (hlen : q.len = l.length) (hn : l.length < n) (hm : n ≤ 2 ^ 63) (hid : id < h.next)
    (hb : h.blk id = some (l.map some ++ List.replicate (n - l.length) none)) :
    Rep T h { data := some id, len := q.len, last := q.len, cap := n } l := by
  refine ⟨hlen, hid, ⟨by simp; omega, by simpa using hm, by simp; omega, by simp; omega⟩, _, hb,
    by simp; omega, ?_, Or.inr ?_⟩
  · intro k hk
    have : slot { data := some id, len := q.len, last := q.len, cap := n } k = k := by
      simp [slot]; omega
    rw [this, List.getElem?_append_left (by simpa using hk)]
    simp [hk]
  · intro i hi hne
    have hil : l.length ≤ i := by
      apply Nat.le_of_not_lt
      intro hlt
      exact hne i (by simp; omega) (by simp [slot]; omega)
    simp at hi
    rw [List.getElem?_append_right (by simpa using hil)]
    simp [List.getElem?_replicate]; omega

/-- The slots of a ring that does not wrap / wraps. -/
theorem slot_lin {q : Queue} (hw : q.len ≤ q.last) (j : Nat) : slot q (0 + j) = (q.last - q.len) + j := by
  simp only [slot]; rw [if_neg (by omega)]; omega

theorem slot_hi {q : Queue} (o : q.Ok) (hw : q.last < q.len) (j : Nat) (hj : j < q.len - q.last) :
    slot q (0 + j) = (q.last + q.cap - q.len) + j := by
  have := o.len
  simp only [slot]; rw [if_pos (by omega)]; omega

theorem slot_lo {q : Queue} (hw : q.last < q.len) (j : Nat) :
    slot q ((q.len - q.last) + j) = 0 + j := by
  simp only [slot]; rw [if_neg (by omega)]; omega

theorem wp_reserve {O : Prop} {T : Traits} {n : Nat} {h : Heap α} {q : Queue} {l : List α}
    (hw : h.WF) (hm : h.lim ≤ 2 ^ 63) (r : Rep T h q l) (hO : h.lim < n → O) :
    wp O (reserve T q n) h (fun v' h' => Rep T h' v' l ∧ Frame h q.data h' v'.data ∧
      v'.cap = max q.cap n) := by
  unfold reserve
  by_cases hn : n ≤ q.cap
  · rw [if_pos hn, wp_pure]
    exact ⟨r, Frame.refl _ _, by omega⟩
  · rw [if_neg hn, wp_bind]
    refine wp_alloc (by omega) hO ?_
    intro hl
    obtain ⟨r1, r2⟩ := r
    cases hd : q.data with
    | none =>
      simp only [hd] at r2
      obtain ⟨r2, r3, rfl⟩ := r2
      simp only [List.length_nil] at r1
      rw [wp_bind]
      refine wp_mono (O := O) (Q := fun _ h' => h' = afterAlloc n h) ?_ id ?_
      · simp only [r1, r3, Nat.le_refl, if_true]
        split
        · exact wp_ok (b := ()) (h' := afterAlloc n h) rfl rfl
        · simp only [forLoop]; rw [wp_pure]
      rintro _ _ rfl
      rw [wp_bind]
      refine wp_ok (free_null _) ?_
      rw [wp_pure]
      refine ⟨rep_fresh (l := []) (by simp [r1]) (by simp; omega) (by omega) (by simp) (by simp [afterAlloc_blk]),
        ?_, by simp; omega⟩
      refine ⟨by simp, by simp, ?_, Or.inr ⟨?_, by simp⟩⟩
      · intro j _ hj
        rw [afterAlloc_blk, if_neg]
        intro e; exact hj (by simp [e])
      · intro j hj; simp at hj; subst hj; simp
    | some id =>
      simp only [hd] at r2
      obtain ⟨hid, ok, b, hb, ring⟩ := r2
      have hne : id ≠ h.next := by omega
      have hc0 := ok.cap0; have hcM := ok.capM; have hla := ok.last; have hle := ok.len
      have hsz := ring.size
      have hbid : (afterAlloc n h).blk id = some b := by
        rw [afterAlloc_blk, if_neg hne, hb]
      have hbn : (afterAlloc n h).blk h.next = some (List.replicate n none) := by
        simp [afterAlloc_blk]
      have fin : ∀ (old : Buf α), (T.triv = true ∨ ∀ c ∈ old, c = none) →
          ∀ h2, h2 = ((afterAlloc n h).put id (some old)).put h.next
            (some (l.map some ++ List.replicate (n - l.length) none)) →
          wp O (do free T (some id); pure { data := some h.next, len := q.len, last := q.len, cap := n }) h2
            (fun v' h' => Rep T h' v' l ∧ Frame h (some id) h' v'.data ∧ v'.cap = max q.cap n) := by
        intro old hold h2 e
        rw [wp_bind]
        refine wp_free (b := old) ?_ hold ?_
        · rw [e, put_blk_ne _ _ hne]; simp
        · rw [wp_pure]
          refine ⟨rep_fresh r1 (by omega) (by omega) (by simp [e]) ?_, ?_, by simp; omega⟩
          · rw [put_blk_ne _ _ (Ne.symm hne), e]; simp
          · refine ⟨by simp [e], by simp [e], ?_, Or.inr ⟨?_, ?_⟩⟩
            · intro j hj hj'
              have h1 : j ≠ id := fun e => hj (by rw [e])
              have h2 : j ≠ h.next := fun e => hj' (by simp [e])
              rw [put_blk_ne _ _ h1, e, put_blk_ne _ _ h2, put_blk_ne _ _ h1, afterAlloc_blk, if_neg h2]
            · intro j hj; simp at hj; subst hj; simp [e]
            · intro j hj; simp at hj; subst hj; simp
      rw [wp_bind]
      refine wp_mono (O := O) (Q := fun _ h2 => ∃ old, (T.triv = true ∨ ∀ c ∈ old, c = none) ∧
          h2 = ((afterAlloc n h).put id (some old)).put h.next
            (some (l.map some ++ List.replicate (n - l.length) none))) ?_ (fun o => o)
        (fun _ h2 ⟨old, h1, h3⟩ => fin old h1 h2 h3)
      -- elements from the wrapped ring, as two stretches
      have es : wsub q.len q.last = q.len - q.last ∨ q.len ≤ q.last := by
        simp only [wsub]; omega
      by_cases htv : T.triv = true
      · rw [if_pos htv]
        by_cases hwr : q.len ≤ q.last
        · rw [if_pos hwr]
          have es : wsub q.last q.len = q.last - q.len := by simp only [wsub]; omega
          have hst := ring.stretch (s := q.last - q.len) (k := 0) (n := q.len) (by omega)
            (fun j hj => slot_lin hwr j)
          have hst' : List.take q.len (l.drop 0) = l := by
            rw [List.drop_zero, List.take_of_length_le (by omega)]
          rw [hst'] at hst
          rw [es]
          refine wp_memcpy hbn hbid (by simp; omega) (by omega) ?_ ?_
          · refine ⟨b, Or.inl htv, ?_⟩
            rw [← hbid, put_self]
            congr 2
            rw [hst]; simp [r1]
          · intro h0
            refine ⟨b, Or.inl htv, ?_⟩
            have hl0 : l = [] := by rw [← List.length_eq_zero_iff]; omega
            rw [← hbid, put_self, hl0]
            have : some (List.map some ([] : List α) ++ List.replicate (n - ([] : List α).length) none)
                = (afterAlloc n h).blk h.next := by rw [hbn]; simp
            rw [this, put_self]
        · rw [if_neg hwr]
          have hwr' : q.last < q.len := by omega
          have es : wsub q.len q.last = q.len - q.last := by simp only [wsub]; omega
          have es2 : wadd (wsub q.last q.len) q.cap = q.last + q.cap - q.len := by
            simp only [wadd, wsub]; omega
          have h1 := ring.stretch (s := q.last + q.cap - q.len) (k := 0) (n := q.len - q.last) (by omega)
            (fun j hj => slot_hi ok hwr' j hj)
          have h2 := ring.stretch (s := 0) (k := q.len - q.last) (n := q.last) (by omega)
            (fun j hj => slot_lo hwr' j)
          have hlist : (l.drop (q.len - q.last)).take q.last = l.drop (q.len - q.last) :=
            List.take_of_length_le (by simp; omega)
          rw [List.drop_zero] at h1
          rw [hlist] at h2
          simp only [es, es2]
          rw [wp_bind]
          refine wp_memcpy hbn hbid (by simp; omega) (by omega) ?_ (by omega)
          rw [h1]
          have hput : ∀ (c : Buf α), ((afterAlloc n h).put h.next (some c)).blk id = some b := by
            intro c; rw [put_blk_ne _ _ hne, hbid]
          have hmin : min (q.len - q.last) l.length = q.len - q.last := by omega
          refine wp_memcpy (put_blk_self _ _ _) (hput _) (by simp [hmin]; omega) (by omega) ?_ ?_
          · refine ⟨b, Or.inl htv, ?_⟩
            rw [← hbid, put_self, put_put]
            congr 2
            rw [h2]
            have e1 : List.take (q.len - q.last) (List.take 0 (List.replicate n (none : Option α)) ++
                List.map some (List.take (q.len - q.last) l) ++
                List.drop (0 + (q.len - q.last)) (List.replicate n none))
                = List.map some (List.take (q.len - q.last) l) := by
              simp [List.take_append, hmin]
            have e2 : List.drop (q.len - q.last + q.last) (List.take 0 (List.replicate n (none : Option α)) ++
                List.map some (List.take (q.len - q.last) l) ++
                List.drop (0 + (q.len - q.last)) (List.replicate n none))
                = List.replicate (n - l.length) none := by
              simp only [List.drop_append, hmin, List.take_zero, List.nil_append, List.length_nil,
                List.length_map, List.length_take, List.drop_replicate]
              rw [List.drop_of_length_le (by simp; omega), List.nil_append]
              congr 1; omega
            rw [e1, e2, ← List.map_append, List.take_append_drop]
          · intro h0
            refine ⟨b, Or.inl htv, ?_⟩
            rw [← hbid, put_self]
            congr 2
            have : l.take (q.len - q.last) = l := List.take_of_length_le (by omega)
            rw [this]
            have h3 : q.len - q.last = l.length := by omega
            simp [h3]
      · rw [if_neg htv]
        have htf : T.triv = false := by simpa using htv
        have hraw : ∀ i, i < q.cap → (∀ k, k < q.len → slot q k ≠ i) → b[i]? = some none := by
          rcases ring.raw with h1 | h1
          · rw [htf] at h1; simp at h1
          · exact h1
        by_cases hwr : q.len ≤ q.last
        · rw [if_pos hwr]
          have es : wsub q.last q.len = q.last - q.len := by simp only [wsub]; omega
          have hst := ring.stretch (s := q.last - q.len) (k := 0) (n := q.len) (by omega)
            (fun j hj => slot_lin hwr j)
          have hst' : List.take q.len (l.drop 0) = l := by
            rw [List.drop_zero, List.take_of_length_le (by omega)]
          rw [hst'] at hst
          have hb3 := split3 b (q.last - q.len) q.len
          rw [hst] at hb3
          have hsl : (b.take (q.last - q.len)).length = q.last - q.len := by simp; omega
          refine loop_move (T := T) htf hne l (b.take (q.last - q.len))
            (b.drop (q.last - q.len + q.len)) [] (List.replicate l.length none)
            (List.replicate (n - l.length) none) _ (hbid.trans (congrArg some hb3))
            (by rw [hbn]; simp; omega) (by simp)
            (fun c hc => (List.mem_replicate.mp hc).2) ?_ (q.last - q.len) 0 q.len hsl.symm rfl r1 0
            (fun i => wadd (wsub q.last q.len) i) (fun i => i) ?_ (by simp)
          · refine ⟨_, Or.inr ?_, by rw [List.nil_append]⟩
            intro c hc
            simp only [List.mem_append] at hc
            rcases hc with (hc | hc) | hc
            · obtain ⟨i, hi⟩ := List.mem_iff_getElem?.mp hc
              rw [List.getElem?_take] at hi
              split at hi
              · rw [hraw i (by omega) (by intro k hk; simp only [slot]; split <;> omega)] at hi
                simpa using hi.symm
              · simp at hi
            · exact (List.mem_replicate.mp hc).2
            · obtain ⟨i, hi⟩ := List.mem_iff_getElem?.mp hc
              rw [List.getElem?_drop] at hi
              have hlt : q.last - q.len + q.len + i < q.cap := by
                have := (List.getElem?_eq_some_iff.mp hi).1; omega
              rw [hraw _ hlt (by intro k hk; simp only [slot]; split <;> omega)] at hi
              simpa using hi.symm
          · intro k hk; simp only [es, wadd]; omega
        · rw [if_neg hwr]
          have hwr' : q.last < q.len := by omega
          have es : wsub q.len q.last = q.len - q.last := by simp only [wsub]; omega
          have h1 := ring.stretch (s := q.last + q.cap - q.len) (k := 0) (n := q.len - q.last) (by omega)
            (fun j hj => slot_hi ok hwr' j hj)
          have h2 := ring.stretch (s := 0) (k := q.len - q.last) (n := q.last) (by omega)
            (fun j hj => slot_lo hwr' j)
          have hlist : (l.drop (q.len - q.last)).take q.last = l.drop (q.len - q.last) :=
            List.take_of_length_le (by simp; omega)
          rw [List.drop_zero] at h1
          rw [hlist, List.drop_zero] at h2
          generalize hfst : q.len - q.last = first at *
          generalize hs1 : q.last + q.cap - q.len = s1 at *
          -- the buffer: second part, gap, first part
          have hb3 : b = b.take s1 ++ (l.take first).map some ++ [] := by
            rw [← h1]
            conv => lhs; rw [split3 b s1 first]
            rw [List.drop_of_length_le (i := s1 + first) (by omega)]
          have hb4 : b.take s1 = (l.drop first).map some ++ (b.take s1).drop q.last := by
            conv => lhs; rw [← List.take_append_drop q.last (b.take s1)]
            rw [List.take_take, Nat.min_eq_left (by omega), h2]
          simp only [es]
          rw [wp_bind]
          refine loop_move (T := T) htf hne (l.take first) (b.take s1) [] [] (List.replicate first none)
            (List.replicate (n - first) none) _ (hbid.trans (congrArg some hb3))
            (by rw [hbn]; simp; omega) (by simp; omega)
            (fun c hc => (List.mem_replicate.mp hc).2) ?_ s1 0 first (by simp; omega) rfl
            (by simp; omega) 0
            (fun i => wadd (wsub q.last q.len) (wadd i q.cap)) (fun i => i)
            (by intro k hk; simp only [wadd, wsub]; omega) (by simp)
          have hlt1 : (l.take first).length = first := by simp; omega
          refine loop_move (T := T) htf hne (l.drop first) []
            ((b.take s1).drop q.last ++ List.replicate (l.take first).length none)
            ((l.take first).map some) (List.replicate (l.drop first).length none)
            (List.replicate (n - l.length) none) _ ?_ ?_ (by simp)
            (fun c hc => (List.mem_replicate.mp hc).2) ?_ 0 first q.last rfl (by simp; omega)
            (by simp; omega) 0
            (fun i => i) (fun i => wadd first i)
            (by simp) (by intro k hk; simp only [wadd]; omega)
          · rw [put_blk_ne _ _ hne, put_blk_self, List.append_nil, List.nil_append, ← List.append_assoc,
              ← hb4]
          · rw [put_blk_self]; simp; omega
          · refine ⟨List.replicate (l.drop first).length none ++ ((b.take s1).drop q.last ++
              List.replicate (l.take first).length none), Or.inr ?_, ?_⟩
            · intro c hc
              simp only [List.mem_append] at hc
              rcases hc with hc | hc | hc
              · exact (List.mem_replicate.mp hc).2
              · obtain ⟨i, hi⟩ := List.mem_iff_getElem?.mp hc
                rw [List.getElem?_drop, List.getElem?_take] at hi
                split at hi
                · rw [hraw _ (by omega) (by intro k hk; simp only [slot]; split <;> omega)] at hi
                  simpa using hi.symm
                · simp at hi
              · exact (List.mem_replicate.mp hc).2
            · rw [put_comm _ _ _ (Ne.symm hne), put_put, put_put]
              simp only [List.nil_append, List.append_assoc]
              rw [← List.append_assoc (List.map some _), ← List.map_append, List.take_append_drop]

theorem wp_grow {O : Prop} {T : Traits} {h : Heap α} {q : Queue} {l : List α}
    (hw : h.WF) (hm : h.lim ≤ 2 ^ 63) (r : Rep T h q l) (hO : h.lim < max 8 (2 * q.cap) → O) :
    wp O (grow T q) h (fun v' h' => Rep T h' v' l ∧ Frame h q.data h' v'.data ∧
      q.cap < v'.cap ∧ v'.cap ≤ max 8 (2 * q.cap)) := by
  unfold grow
  refine wp_mono (wp_reserve hw hm r (O := O) ?_) id ?_
  · split <;> intro hh <;> apply hO <;> omega
  · rintro v' h' ⟨h1, h2, h3⟩
    refine ⟨h1, h2, ?_, ?_⟩ <;> rw [h3] <;> split <;> omega

/-- The queue after one more element. -/
theorem slot_push {q : Queue} (o : q.Ok) (hf : q.len < q.cap) (l : Nat)
    (hl : l = if q.last = wsub q.cap 1 then 0 else q.last + 1) :
    (∀ k, k < q.len → slot { q with len := q.len + 1, last := l } k = slot q k) ∧
    slot { q with len := q.len + 1, last := l } q.len = q.last ∧ l < q.cap := by
  have h1 := o.cap0; have h2 := o.capM; have h3 := o.last; have h4 := o.len
  have e : wsub q.cap 1 = q.cap - 1 := by simp only [wsub]; omega
  rw [e] at hl
  refine ⟨?_, ?_, ?_⟩
  · intro k hk; subst hl; simp only [slot]; split <;> split <;> split <;> omega
  · subst hl; simp only [slot]; split <;> split <;> omega
  · subst hl; split <;> omega

theorem wp_push {O : Prop} {T : Traits} {h : Heap α} {q : Queue} {l : List α} {x : α}
    (hw : h.WF) (hm : h.lim ≤ 2 ^ 63) (r : Rep T h q l)
    (hO : q.len = q.cap → h.lim < max 8 (2 * q.cap) → O) :
    wp O (push T q x) h (fun v' h' => Rep T h' v' (l ++ [x]) ∧ Frame h q.data h' v'.data ∧
      v'.cap ≤ max q.cap (max 8 (2 * q.len))) := by
  unfold push
  have rest : ∀ (v : Queue) (h1 : Heap α), Rep T h1 v l → Frame h q.data h1 v.data →
      v.len < v.cap → v.cap ≤ max q.cap (max 8 (2 * q.len)) →
      wp O (do
        construct T v.data v.last x
        pure { v with len := v.len + 1, last := if v.last = wsub v.cap 1 then 0 else v.last + 1 }) h1
      (fun v' h' => Rep T h' v' (l ++ [x]) ∧ Frame h q.data h' v'.data ∧
      v'.cap ≤ max q.cap (max 8 (2 * q.len))) := by
    intro v h1 r1 f1 hlt hcap
    obtain ⟨r2, r3⟩ := r1
    cases hd : v.data with
    | none => simp only [hd] at r3; omega
    | some id =>
      simp only [hd] at r3
      obtain ⟨hid, ok, b, hb, ring⟩ := r3
      obtain ⟨s1, s2, s3⟩ := slot_push ok hlt _ rfl
      simp only [hd] at s1 s2
      have hla := ok.last
      have hfree : ∀ k, k < v.len → slot v k ≠ v.last := by
        intro k hk; have h3 := ok.last; have h4 := ok.len
        simp only [slot]; split <;> omega
      rw [wp_bind]
      refine wp_construct (b := b) hb (by rw [ring.size]; exact hla) ?_ ?_
      · rcases ring.raw with h2 | h2
        · exact Or.inl h2
        · exact Or.inr (h2 _ hla hfree)
      · rw [wp_pure]
        refine ⟨⟨by simp [r2], ?_⟩, ?_, by simpa using hcap⟩
        · simp only [put_next, put_blk_self]
          refine ⟨hid, ⟨ok.cap0, ok.capM, by simpa using s3, by simp; omega⟩, _, rfl, ?_, ?_, ?_⟩
          · simpa using ring.size
          · intro k hk
            by_cases hkl : k < l.length
            · rw [← r2] at hkl
              have hs := s1 k hkl
              rw [hs, List.getElem?_set, if_neg (fun e => hfree k hkl e.symm), ring.elem k (by omega),
                List.getElem_append_left (by omega)]
            · have : k = v.len := by simp at hk; omega
              subst this
              rw [s2, List.getElem?_set, if_pos rfl, if_pos (by rw [ring.size]; exact hla)]
              simp [r2]
          · rcases ring.raw with h2 | h2
            · exact Or.inl h2
            · right
              intro i hi hne
              have hi1 : i ≠ v.last := fun e => hne v.len (by simp) (by rw [s2, e])
              rw [List.getElem?_set, if_neg (Ne.symm hi1)]
              exact h2 i hi (fun k hk e => hne k (by simp; omega) (by rw [s1 k hk, e]))
        · have f2 : Frame h1 v.data (h1.put id (some (b.set v.last (some x)))) v.data := by
            rw [hd]; exact Frame.put _ _ _
          have := f1.trans f2 hw r.lt
          rw [hd] at this; exact this
  rw [wp_bind]
  by_cases hf : q.len = q.cap
  · rw [if_pos hf]
    refine wp_mono (wp_grow hw hm r (hO hf)) id ?_
    rintro v1 h1 ⟨r1, f1, c1, c2⟩
    have e1 : v1.len = q.len := by rw [r1.1, r.1]
    exact rest v1 h1 r1 f1 (by omega) (by omega)
  · rw [if_neg hf, wp_pure]
    exact rest q h r (Frame.refl _ _) (by have := r.len_le; omega) (by omega)

theorem wp_read {O : Prop} {T : Traits} {h : Heap α} {q : Queue} {l : List α} (r : Rep T h q l)
    {i : Nat} (hi : i < l.length) {Q : α → Heap α → Prop} (hq : Q l[i] h) :
    wp O (readAt q.data (slot q i)) h Q := by
  obtain ⟨id, b, hd, _, _, hb, ring⟩ := r.buf (fun e => by simp [e] at hi)
  rw [hd]
  exact wp_readAt hb (ring.elem i hi) hq

theorem Rep.ok {T : Traits} {h : Heap α} {q : Queue} {l : List α} (r : Rep T h q l) {i : Nat}
    (hi : i < l.length) : q.Ok := by
  obtain ⟨id, b, hd, _, o, _⟩ := r.buf (fun e => by simp [e] at hi)
  exact o

theorem wp_get {O : Prop} {T : Traits} {h : Heap α} {q : Queue} {l : List α} (r : Rep T h q l)
    {i : Nat} (hi : i < l.length) : wp O (get q i) h (fun x h' => x = l[i] ∧ h' = h) := by
  unfold get
  rw [wp_bind]
  refine wp_require _ _ _ (by simp [r.1, hi]) ?_
  rw [index_eq (r.ok hi) (by rw [r.1]; exact hi)]
  exact wp_read r hi ⟨rfl, rfl⟩

theorem wp_front {O : Prop} {T : Traits} {h : Heap α} {q : Queue} {l : List α} (r : Rep T h q l)
    (hi : l ≠ []) : wp O (front q) h (fun x h' => x = l.head hi ∧ h' = h) := by
  unfold front
  have hl := List.length_pos_iff.mpr hi
  rw [wp_bind]
  refine wp_require _ _ _ (by simp [r.1]; exact hi) ?_
  rw [startIdx_eq (r.ok hl) (by rw [r.1]; exact hl)]
  exact wp_read r hl ⟨by rw [List.head_eq_getElem], rfl⟩

theorem wp_back {O : Prop} {T : Traits} {h : Heap α} {q : Queue} {l : List α} (r : Rep T h q l)
    (hi : l ≠ []) : wp O (back q) h (fun x h' => x = l.getLast hi ∧ h' = h) := by
  unfold back
  have hl := List.length_pos_iff.mpr hi
  rw [wp_bind]
  refine wp_require _ _ _ (by simp [r.1]; exact hi) ?_
  rw [endIdx_eq (r.ok hl) (by rw [r.1]; exact hl), r.1]
  exact wp_read r (by omega) ⟨by rw [List.getLast_eq_getElem], rfl⟩

theorem penultimate_eq {q : Queue} (o : q.Ok) (h : 1 < q.len) :
    (if q.last = 0 then wsub q.cap 2 else if q.last = 1 then wsub q.cap 1 else q.last - 2)
      = slot q (q.len - 2) := by
  have h1 := o.cap0; have h2 := o.capM; have h3 := o.last; have h4 := o.len
  have e1 : wsub q.cap 1 = q.cap - 1 := by simp only [wsub]; omega
  have e2 : wsub q.cap 2 = q.cap - 2 := by simp only [wsub]; omega
  rw [e1, e2]
  simp only [slot]
  split
  · split <;> omega
  · split <;> split <;> omega

theorem wp_penultimate {O : Prop} {T : Traits} {h : Heap α} {q : Queue} {l : List α}
    (r : Rep T h q l) (hi : 1 < l.length) :
    wp O (penultimate q) h (fun x h' => x = l[l.length - 2] ∧ h' = h) := by
  unfold penultimate
  rw [wp_bind]
  refine wp_require _ _ _ (by simp [r.1]; exact hi) ?_
  rw [penultimate_eq (r.ok (i := 0) (by omega)) (by rw [r.1]; exact hi), r.1]
  exact wp_read r (by omega) ⟨rfl, rfl⟩

theorem wp_set {O : Prop} {T : Traits} {h : Heap α} {q : Queue} {l : List α} (r : Rep T h q l)
    {i : Nat} (hi : i < l.length) (x : α) :
    wp O (set q i x) h (fun _ h' => Rep T h' q (l.set i x) ∧ Frame h q.data h' q.data) := by
  unfold set
  rw [wp_bind]
  refine wp_require _ _ _ (by simp [r.1, hi]) ?_
  have r1 := r.1
  rw [index_eq (r.ok hi) (by rw [r.1]; exact hi)]
  obtain ⟨id, b, hd, hid, ok, hb, ring⟩ := r.buf (fun e => by simp [e] at hi)
  rw [hd]
  refine wp_assignAt (y := l[i]) hb (ring.elem i hi) ?_
  refine ⟨?_, Frame.put _ _ _⟩
  refine ⟨by simp [r1], ?_⟩
  simp only [hd, put_next, put_blk_self]
  refine ⟨hid, ok, _, rfl, by simpa using ring.size, ?_, ?_⟩
  · intro k hk
    simp only [List.length_set] at hk
    by_cases hki : k = i
    · subst hki
      rw [List.getElem?_set, if_pos rfl, if_pos (by rw [ring.size]; exact slot_lt ok (by omega))]
      simp
    · rw [List.getElem?_set, if_neg (fun e => hki (slot_inj ok (by omega) (by omega) e.symm)),
        ring.elem k hk, List.getElem_set, if_neg (Ne.symm hki)]
  · rcases ring.raw with h2 | h2
    · exact Or.inl h2
    · right
      intro j hj hne
      rw [List.getElem?_set, if_neg (hne i (by omega))]
      exact h2 j hj hne

theorem wp_iterate {O : Prop} {T : Traits} {h : Heap α} {q : Queue} {l : List α} (r : Rep T h q l) :
    ∀ (n i : Nat), i + n = l.length →
    wp O (iterate q i n) h (fun xs h' => xs = l.drop i ∧ h' = h) := by
  intro n
  induction n with
  | zero => intro i hi; simp [iterate, wp_pure]; omega
  | succ n ih =>
    intro i hi
    simp only [iterate]
    rw [wp_bind]
    have hlt : i < l.length := by omega
    rw [idxAt_eq (r.ok hlt) (by rw [r.1]; exact hlt)]
    refine wp_read r hlt ?_
    rw [wp_bind]
    refine wp_mono (ih (i + 1) (by omega)) id ?_
    rintro xs h' ⟨rfl, rfl⟩
    rw [wp_pure]
    exact ⟨by rw [List.drop_eq_getElem_cons hlt], rfl⟩

/-- Destroying the elements from the `i`-th on. -/
theorem loop_destroySlots {O : Prop} {T : Traits} {q : Queue} {id : Nat} (ht : T.triv = false)
    (ok : q.Ok) (hd : q.data = some id) {Q : Unit → Heap α → Prop} :
    ∀ (n i : Nat) (h : Heap α) (b : Buf α), i + n = q.len → h.blk id = some b → b.length = q.cap →
    (∀ k, i ≤ k → k < q.len → ∃ x, b[slot q k]? = some (some x)) →
    (∀ j, j < q.cap → (∀ k, i ≤ k → k < q.len → slot q k ≠ j) → b[j]? = some none) →
    Q () (h.put id (some (List.replicate q.cap none))) →
    wp O (forLoop (fun i => destroy T q.data (idxAt q i)) i n) h Q := by
  intro n
  induction n with
  | zero =>
    intro i h b hi hb hs hl hr hq
    simp only [forLoop, wp_pure]
    have : b = List.replicate q.cap none := by
      apply List.ext_getElem?
      intro j
      by_cases hj : j < q.cap
      · rw [hr j hj (fun k h1 h2 => by omega)]; simp [hj]
      · rw [List.getElem?_eq_none (by omega), List.getElem?_eq_none (by simp; omega)]
    rw [← this, ← hb, put_self] at hq
    exact hq
  | succ n ih =>
    intro i h b hi hb hs hl hr hq
    simp only [forLoop]
    rw [wp_bind, idxAt_eq ok (by omega), hd]
    obtain ⟨x, hx⟩ := hl i (Nat.le_refl _) (by omega)
    refine wp_destroy ht hb hx ?_
    rw [← hd]
    refine ih (i + 1) _ (b.set (slot q i) none) (by omega) (by simp) (by simpa using hs) ?_ ?_ ?_
    · intro k h1 h2
      obtain ⟨y, hy⟩ := hl k (by omega) h2
      refine ⟨y, ?_⟩
      rw [List.getElem?_set, if_neg, hy]
      intro e; have := slot_inj ok (by omega) h2 e; omega
    · intro j hj hne
      by_cases hji : slot q i = j
      · subst hji
        rw [List.getElem?_set, if_pos rfl, if_pos (by omega)]
      · rw [List.getElem?_set, if_neg hji]
        apply hr j hj
        intro k h1 h2
        by_cases hk : k = i
        · subst hk; exact hji
        · exact hne k (by omega) h2
    · rw [put_put]; exact hq

theorem wp_clear {O : Prop} {T : Traits} {h : Heap α} {q : Queue} {l : List α} (r : Rep T h q l) :
    wp O (clear T q) h (fun v' h' => Rep T h' v' [] ∧ Frame h q.data h' v'.data ∧ v'.cap = q.cap ∧
      v'.data = q.data ∧ v'.len = 0 ∧ v'.last = 0) := by
  unfold clear
  rw [wp_bind]
  obtain ⟨r1, r2⟩ := r
  cases ht : T.triv with
  | true =>
    simp only [Bool.not_true, Bool.false_eq_true, if_false]
    rw [wp_pure, wp_pure]
    refine ⟨⟨by simp, ?_⟩, Frame.refl _ _, rfl, rfl, rfl, rfl⟩
    cases hd : q.data with
    | none => simp only [hd] at r2 ⊢; simp [r2.1]
    | some id =>
      simp only [hd] at r2 ⊢
      obtain ⟨hid, ok, b, hb, ring⟩ := r2
      exact ⟨hid, ⟨ok.cap0, ok.capM, ok.cap0, by simp⟩, b, hb, ring.size, by simp, Or.inl ht⟩
  | false =>
    simp only [Bool.not_false, if_true]
    cases hd : q.data with
    | none =>
      simp only [hd] at r2
      obtain ⟨h1, h2, rfl⟩ := r2
      simp only [List.length_nil] at r1
      rw [r1]
      simp only [forLoop]
      rw [wp_pure, wp_pure]
      exact ⟨⟨by simp, by simp [h1]⟩, Frame.refl _ _, rfl, rfl, rfl, rfl⟩
    | some id =>
      simp only [hd] at r2
      obtain ⟨hid, ok, b, hb, ring⟩ := r2
      rw [← hd]
      refine loop_destroySlots ht ok hd q.len 0 h b (by omega) hb ring.size
        (fun k _ h2 => ⟨_, ring.elem k (by omega)⟩) ?_ ?_
      · intro j hj hne
        rcases ring.raw with h2 | h2
        · rw [ht] at h2; simp at h2
        · exact h2 j hj (fun k hk => hne k (Nat.zero_le _) hk)
      · rw [wp_pure]
        refine ⟨⟨by simp, ?_⟩, ?_, rfl, rfl, rfl, rfl⟩
        · simp only [hd, put_next, put_blk_self]
          refine ⟨hid, ⟨ok.cap0, ok.capM, ok.cap0, by simp⟩, _, rfl, by simp, by simp, Or.inr ?_⟩
          intro i hi _; simp at hi; simp [hi]
        · simp only [hd]; exact Frame.put _ _ _

theorem wp_dtor {O : Prop} {T : Traits} {h : Heap α} {q : Queue} {l : List α} (hw : h.WF)
    (r : Rep T h q l) :
    wp O (dtor T q) h (fun v' h' => v' = Queue.nil ∧ Frame h q.data h' none) := by
  unfold dtor
  rw [wp_bind]
  refine wp_mono (wp_clear r) id ?_
  rintro v1 h1 ⟨r1, f1, c1, d1, e1, e2⟩
  rw [wp_bind]
  cases hd : q.data with
  | none =>
    rw [d1, hd]
    refine wp_ok (free_null _) ?_
    rw [wp_pure]
    rw [d1, hd] at f1
    exact ⟨by simp [Queue.nil, e1, e2], f1⟩
  | some id =>
    rw [d1, hd]
    obtain ⟨_, r2⟩ := r1
    simp only [d1, hd] at r2
    obtain ⟨hid, ok, b, hb, ring⟩ := r2
    refine wp_free hb ?_ ?_
    · rcases ring.raw with h2 | h2
      · exact Or.inl h2
      · right
        intro c hc
        obtain ⟨i, hi⟩ := List.mem_iff_getElem?.mp hc
        have hlt : i < v1.cap := by
          have := (List.getElem?_eq_some_iff.mp hi).1; have := ring.size; omega
        rw [h2 i hlt (by intro k hk; omega)] at hi
        simpa using hi.symm
    · rw [wp_pure]
      refine ⟨by simp [Queue.nil, e1, e2], ?_⟩
      rw [d1, hd] at f1
      refine ⟨f1.next_le, f1.lim_eq, ?_, Or.inr ⟨by simp, ?_⟩⟩
      · intro j hj _
        have hne : j ≠ id := fun e => hj (by rw [e])
        rw [put_blk_ne _ _ hne]; exact f1.other j hj hj
      · intro j hj; simp at hj; subst hj; simp

theorem wp_pop {O : Prop} {T : Traits} {h : Heap α} {q : Queue} {l : List α} (r : Rep T h q l)
    (hl : l ≠ []) : wp O (pop T q) h (fun v' h' => Rep T h' v' l.tail ∧
      Frame h q.data h' v'.data ∧ v'.cap = q.cap) := by
  unfold pop
  have hpos := List.length_pos_iff.mpr hl
  have r1 := r.1
  rw [wp_bind]
  refine wp_require _ _ _ (by simp [r.1]; exact hpos) ?_
  obtain ⟨id, b, hd, hid, ok, hb, ring⟩ := r.buf hl
  have h1 := ok.cap0; have h2 := ok.capM; have h3 := ok.last; have h4 := ok.len
  have eidx : (if q.len ≤ q.last then wsub q.last q.len else wadd (wsub q.last q.len) q.cap)
      = slot q 0 := by
    simp only [slot]
    by_cases hc : q.len ≤ q.last
    · rw [if_pos hc, if_neg (by omega)]; simp only [wsub]; omega
    · rw [if_neg hc, if_pos (by omega)]; simp only [wsub, wadd]; omega
  have hs : ∀ k, slot { q with len := q.len - 1 } k = slot q (k + 1) := by
    intro k; simp only [slot]; split <;> split <;> omega
  have elem : ∀ (b' : Buf α), (∀ k, 0 < k → k < q.len → b'[slot q k]? = b[slot q k]?) →
      ∀ k (hk : k < l.tail.length), b'[slot { q with len := q.len - 1 } k]? = some (some l.tail[k]) := by
    intro b' hb' k hk
    simp only [List.length_tail] at hk
    rw [hs, hb' _ (by omega) (by omega), ring.elem (k + 1) (by omega)]
    simp
  rw [wp_bind, hd]
  simp only [hd] at hs elem
  simp only [eidx]
  cases ht : T.triv with
  | true =>
    have : destroy (α := α) T (some id) (slot q 0) h = .ok ((), h) := by simp [destroy, ht]
    refine wp_ok this ?_
    rw [wp_pure]
    refine ⟨⟨by simp [r1], ?_⟩, Frame.refl _ _, rfl⟩
    exact ⟨hid, ⟨h1, h2, h3, by simp; omega⟩, b, hb, ring.size, elem b (fun _ _ _ => rfl), Or.inl ht⟩
  | false =>
    refine wp_destroy ht hb (ring.elem 0 hpos) ?_
    rw [wp_pure]
    refine ⟨⟨by simp [r1], ?_⟩, Frame.put _ _ _, rfl⟩
    simp only [put_next, put_blk_self]
    refine ⟨hid, ⟨h1, h2, h3, by simp; omega⟩, _, rfl, by simpa using ring.size, ?_, ?_⟩
    · apply elem
      intro k hk hk2
      rw [List.getElem?_set, if_neg]
      intro e; have := slot_inj ok (by omega) hk2 e; omega
    · right
      intro j hj hne
      rcases ring.raw with hr | hr
      · rw [ht] at hr; simp at hr
      · by_cases hj0 : slot q 0 = j
        · subst hj0
          rw [List.getElem?_set, if_pos rfl, if_pos (by rw [ring.size]; exact hj)]
        · rw [List.getElem?_set, if_neg hj0]
          refine hr j hj ?_
          intro k hk e
          cases k with
          | zero => exact hj0 e
          | succ k => exact hne k (by simp; omega) (by rw [hs]; exact e)

theorem wp_pushOwn {O : Prop} {T : Traits} {h : Heap α} {q : Queue} {l : List α} {i : Nat}
    (hw : h.WF) (hm : h.lim ≤ 2 ^ 63) (r : Rep T h q l) (hi : i < l.length)
    (hO : q.len = q.cap → h.lim < max 8 (2 * q.cap) → O) :
    wp O (pushOwn T q i) h (fun v' h' => Rep T h' v' (l ++ [l[i]]) ∧ Frame h q.data h' v'.data ∧
      v'.cap ≤ max q.cap (max 8 (2 * q.len))) := by
  unfold pushOwn
  rw [wp_bind]
  refine wp_mono (wp_get r hi) id ?_
  rintro x h' ⟨rfl, rfl⟩
  exact wp_push hw hm r hO

/-- `clone` of plain data. -/
theorem wp_clone_triv {O : Prop} {T : Traits} {h : Heap α} {q : Queue} {l : List α}
    (ht : T.triv = true) (r : Rep T h q l) (hO : h.lim < q.cap → O) :
    wp O (clone T q) h (fun v' h' => Rep T h' v' l ∧ Frame h none h' v'.data ∧ v'.cap = q.cap) := by
  unfold clone
  rw [wp_bind]
  have r0 := r
  obtain ⟨r1, r2⟩ := r
  cases hd : q.data with
  | none =>
    simp only [hd] at r2
    rw [r2.1]
    refine wp_ok (alloc_zero h) ?_
    rw [if_pos ht, wp_bind]
    refine wp_ok (b := ()) (h' := h) rfl ?_
    rw [wp_pure]
    exact ⟨⟨r1, by simpa using r2.2⟩, Frame.refl _ _, by simp⟩
  | some id =>
    simp only [hd] at r2
    obtain ⟨hid, ok, b, hb, ring⟩ := r2
    refine wp_alloc ok.cap0 hO ?_
    intro hl
    rw [if_pos ht, wp_bind]
    have hne : id ≠ h.next := by omega
    have hbid : (afterAlloc q.cap h).blk id = some b := by
      rw [afterAlloc_blk, if_neg hne, hb]
    have hbn : (afterAlloc q.cap h).blk h.next = some (List.replicate q.cap none) := by
      simp [afterAlloc_blk]
    have hsz := ring.size
    refine wp_memcpy hbn hbid (by simp) (by omega) ?_ (by have := ok.cap0; omega)
    rw [wp_pure]
    refine ⟨⟨r1, ?_⟩, ?_, rfl⟩
    · simp only [put_next, put_blk_self]
      refine ⟨by simp, ⟨ok.cap0, ok.capM, ok.last, ok.len⟩, b, ?_, ring.size, ring.elem, ring.raw⟩
      simp [List.take_of_length_le (by omega : b.length ≤ q.cap)]
    · refine ⟨by simp, by simp, ?_, Or.inr ⟨?_, by simp⟩⟩
      · intro j _ hj
        have hj' : j ≠ h.next := fun e => hj (by simp [e])
        rw [put_blk_ne _ _ hj', afterAlloc_blk, if_neg hj']
      · intro j hj; simp at hj; subst hj; simp

/-- The loop of `erase_first` walks the slots in order. -/
theorem slot_next {q : Queue} (o : q.Ok) {k : Nat} (h : k + 1 < q.len) :
    (if slot q k = wsub q.cap 1 then 0 else slot q k + 1) = slot q (k + 1) := by
  have h1 := o.cap0; have h2 := o.capM; have h3 := o.last; have h4 := o.len
  have e : wsub q.cap 1 = q.cap - 1 := by simp only [wsub]; omega
  rw [e]
  have hv : slot q k = if q.last + k < q.len then q.last + k + q.cap - q.len
    else q.last + k - q.len := rfl
  have hv' : slot q (k + 1) = if q.last + (k + 1) < q.len then q.last + (k + 1) + q.cap - q.len
    else q.last + (k + 1) - q.len := rfl
  rw [hv']
  generalize slot q k = s at *
  split at hv <;> split <;> split <;> omega

variable [DecidableEq α]

/-- No match: nothing happens. -/
theorem wp_eraseLoop_none {O : Prop} {T : Traits} {h : Heap α} {q : Queue} {l : List α} {a : α}
    (r : Rep T h q l) : ∀ (n i : Nat), i + n ≤ l.length → (∀ k (hk : k < l.length), i ≤ k → k < i + n → l[k] ≠ a) →
    ∀ (m : Nat) (Q : Bool → Heap α → Prop),
    (∀ idx, (i + n < l.length → idx = slot q (i + n)) → wp O (eraseLoop T q a m idx false) h Q) →
    ∀ idx, (i < l.length → idx = slot q i) → wp O (eraseLoop T q a (n + m) idx false) h Q := by
  intro n
  induction n with
  | zero => intro i hi hne m Q hq idx he; simpa using hq idx (by simpa using he)
  | succ n ih =>
    intro i hi hne m Q hq idx he
    have hlt : i < l.length := by omega
    have hidx := he hlt
    subst hidx
    have e1 : n + 1 + m = (n + m) + 1 := by omega
    rw [e1]
    unfold eraseLoop
    simp only [Bool.false_eq_true, if_false]
    rw [wp_bind, wp_bind]
    refine wp_read r hlt ?_
    rw [if_neg (hne i hlt (Nat.le_refl _) (by omega)), wp_pure]
    refine ih (i + 1) (by omega) (fun k hk h1 h2 => hne k hk (by omega) (by omega)) m Q ?_ _ ?_
    · intro idx hidx
      exact hq idx (fun hh => by rw [hidx (by omega)]; congr 1; omega)
    · intro hh
      exact slot_next (r.ok hlt) (by rw [r.1]; exact hh)

/-- `erase_first` is correct when the value does not occur before the last position. -/
theorem wp_eraseFirst {O : Prop} {T : Traits} {h : Heap α} {q : Queue} {l : List α} {a : α}
    (r : Rep T h q l) (ha : a ∉ l.dropLast) :
    wp O (eraseFirst T q a) h (fun p h' => p.1 = decide (a ∈ l) ∧ Rep T h' p.2 (l.erase a) ∧
      Frame h q.data h' p.2.data ∧ p.2.cap = q.cap) := by
  unfold eraseFirst
  rw [wp_bind]
  have hdrop : ∀ k (hk : k < l.length), k + 1 < l.length → l[k] ≠ a := by
    intro k hk h1 e
    apply ha
    rw [← e]
    have : k < l.dropLast.length := by simp; omega
    have e2 : l[k] = l.dropLast[k] := by simp
    rw [e2]; exact List.getElem_mem this
  have hst : 0 < l.length → startIdx q = slot q 0 :=
    fun hh => startIdx_eq (r.ok hh) (by rw [r.1]; exact hh)
  have r1 := r.1
  by_cases hmem : a ∈ l
  · have hne : l ≠ [] := List.ne_nil_of_mem hmem
    have hpos := List.length_pos_iff.mpr hne
    have hlast : l.getLast hne = a := by
      rw [← List.dropLast_concat_getLast hne] at hmem
      simp only [List.mem_append, List.mem_singleton] at hmem
      rcases hmem with h1 | h1
      · exact absurd h1 ha
      · exact h1.symm
    have her : l.erase a = l.dropLast := by
      conv => lhs; rw [← List.dropLast_concat_getLast hne]
      rw [List.erase_append_right _ ha, hlast]; simp
    obtain ⟨id, b, hd, hid, ok, hb, ring⟩ := r.buf hne
    have h1 := ok.cap0; have h2 := ok.capM; have h3 := ok.last; have h4 := ok.len
    have e : q.len = (l.length - 1) + 1 := by omega
    rw [e]
    refine wp_eraseLoop_none (O := O) (a := a) r (l.length - 1) 0 (by omega)
      (fun k hk _ h2 => hdrop k hk (by omega)) 1 _ ?_ _ hst
    intro idx hidx
    have := hidx (by omega)
    subst this
    simp only [Nat.zero_add]
    unfold eraseLoop
    simp only [Bool.false_eq_true, if_false]
    rw [wp_bind, wp_bind]
    have hll : l[l.length - 1]'(by omega) = a := by rw [← hlast, List.getLast_eq_getElem]
    refine wp_read r (by omega) ?_
    rw [if_pos hll, wp_bind]
    -- the queue without its last slot
    have ew : wsub q.cap 1 = q.cap - 1 := by simp only [wsub]; omega
    have hs : ∀ k, k < q.len - 1 → slot { data := q.data, len := q.len - 1, last := if q.last ≠ 0 then q.last - 1 else wsub q.cap 1, cap := q.cap } k = slot q k := by
      intro k hk
      rw [ew]
      simp only [slot]; split <;> split <;> split <;> omega
    have fin : ∀ (b' : Buf α), b'.length = q.cap →
        (∀ k, k < q.len - 1 → b'[slot q k]? = b[slot q k]?) →
        (T.triv = true ∨ (b'[slot q (q.len - 1)]? = some none ∧
          ∀ i, i ≠ slot q (q.len - 1) → b'[i]? = b[i]?)) →
        Rep T (h.put id (some b')) { data := some id, len := l.length - 1 + 1 - 1, last := if q.last ≠ 0 then q.last - 1 else wsub q.cap 1, cap := q.cap } (l.erase a) := by
      intro b' hsz hel hrw
      rw [her]
      refine ⟨by simp, ?_⟩
      simp only [put_next, put_blk_self]
      have hq' : q.len - 1 = l.length - 1 + 1 - 1 := by omega
      rw [hd, hq'] at hs
      refine ⟨hid, ⟨h1, h2, ?_, by simp; omega⟩, b', rfl, hsz, ?_, ?_⟩
      · simp only [ew]; split <;> omega
      · intro k hk
        simp at hk
        rw [hs k (by omega), hel k (by omega), ring.elem k (by omega)]
        simp
      · rcases hrw with hrw | ⟨hr1, hr2⟩
        · exact Or.inl hrw
        · rcases ring.raw with hr | hr
          · exact Or.inl hr
          · right
            intro j hj hne
            by_cases hjl : j = slot q (q.len - 1)
            · rw [hjl]; exact hr1
            · rw [hr2 j hjl]
              refine hr j hj ?_
              intro k hk e
              by_cases hkl : k = q.len - 1
              · subst hkl; exact hjl e.symm
              · exact hne k (by simp; omega) (by rw [hs k (by omega)]; exact e)
    rw [hd]
    cases ht : T.triv with
    | true =>
      have : destroy (α := α) T (some id) (slot q (l.length - 1)) h = .ok ((), h) := by simp [destroy, ht]
      refine wp_ok this ?_
      rw [wp_pure]
      unfold eraseLoop
      rw [wp_pure, wp_pure]
      refine ⟨by simp [hmem], ?_, ?_, by simp⟩
      · have := fin b ring.size (fun _ _ => rfl) (Or.inl ht)
        rw [← hb, put_self] at this
        simpa using this
      · simp only [if_true]; exact Frame.refl _ _
    | false =>
      refine wp_destroy ht hb (ring.elem _ (by omega)) ?_
      rw [wp_pure]
      unfold eraseLoop
      rw [wp_pure, wp_pure]
      have hsl : slot q (l.length - 1) = slot q (q.len - 1) := by rw [r1]
      rw [hsl]
      refine ⟨by simp [hmem], ?_, ?_, by simp⟩
      · simp only [if_true]
        refine fin _ (by simpa using ring.size) ?_ (Or.inr ⟨?_, ?_⟩)
        · intro k hk
          rw [List.getElem?_set, if_neg]
          intro e; have := slot_inj ok (by omega) (by omega) e; omega
        · rw [List.getElem?_set, if_pos rfl, if_pos (by rw [ring.size]; exact slot_lt ok (by omega))]
        · intro i hi; rw [List.getElem?_set, if_neg (Ne.symm hi)]
      · simp only [if_true]; exact Frame.put _ _ _
  · have her : l.erase a = l := List.erase_of_not_mem hmem
    have e : q.len = l.length + 0 := by omega
    rw [e]
    refine wp_eraseLoop_none (O := O) (a := a) r l.length 0 (by omega) ?_ 0 _ ?_ _ hst
    · intro k hk _ _ e; exact hmem (e ▸ List.getElem_mem hk)
    · intro idx _
      unfold eraseLoop
      rw [wp_pure, wp_pure]
      refine ⟨by simp [hmem], ?_, ?_, by simp⟩
      · simp only [Bool.false_eq_true, if_false]
        rw [her]; simpa only [← r1] using r
      · simp only [Bool.false_eq_true, if_false]; exact Frame.refl _ _

end Queue
end Rpp
