import Verif.Proof.QWorld

/-! What `erase_first` does when the value occurs before the last position. -/

namespace Rpp
variable {α : Type} [DecidableEq α]

namespace Queue

/-- The loop of `erase_first` reaches the slot after the last one, too. -/
theorem slot_next_end {q : Queue} (o : q.Ok) {k : Nat} (h : k < q.len) :
    (if slot q k = wsub q.cap 1 then 0 else slot q k + 1) = if k + 1 < q.len then slot q (k + 1) else q.last := by
  by_cases h' : k + 1 < q.len
  · rw [if_pos h']
    exact slot_next o h'
  · rw [if_neg h']
    have h1 := o.cap0; have h2 := o.capM; have h3 := o.last; have h4 := o.len
    have e : wsub q.cap 1 = q.cap - 1 := by simp only [wsub]; omega
    rw [e]
    have hv : slot q k = if q.last + k < q.len then q.last + k + q.cap - q.len else q.last + k - q.len := rfl
    generalize slot q k = s at *
    split at hv <;> split <;> omega

/-- The `i`-th slot, the one after the last element included. -/
def slotE (q : Queue) (i : Nat) : Nat := if i < q.len then slot q i else q.last

theorem slotE_lt {q : Queue} (o : q.Ok) (i : Nat) : slotE q i < q.cap := by
  unfold slotE
  split
  · exact slot_lt o ‹_›
  · exact o.last

/-- After the match, for plain data: the element after it is copied onto all that follow it. -/
theorem wp_eraseLoop_found {O : Prop} {T : Traits} {h : Heap α} {q : Queue} {a v : α} {id : Nat} (ht : T.triv = true)
    (hd : q.data = some id) (o : q.Ok) : ∀ (m j : Nat) (b : Buf α), j + m = q.len → b.length = q.cap →
    b[slotE q j]? = some (some v) → h.blk id = some b →
    wp O (eraseLoop T q a m (slotE q j) true) h (fun f h' => f = true ∧ ∃ b' : Buf α, h' = h.put id (some b') ∧
      b'.length = q.cap ∧ (∀ i, j ≤ i → i ≤ q.len → b'[slotE q i]? = some (some v)) ∧
      ∀ s, (∀ i, j < i → i ≤ q.len → s ≠ slotE q i) → b'[s]? = b[s]?) := by
  intro m
  induction m generalizing h with
  | zero =>
    intro j b hj hl hv hb
    unfold eraseLoop
    rw [wp_pure]
    refine ⟨rfl, b, ?_, hl, fun i h1 h2 => ?_, fun s _ => rfl⟩
    · rw [← hb, put_self]
    · rw [show i = j by omega]
      exact hv
  | succ m ih =>
    intro j b hj hl hv hb
    unfold eraseLoop
    simp only [if_true]
    have hjl : j < q.len := by omega
    have hn : (if slotE q j = wsub q.cap 1 then 0 else slotE q j + 1) = slotE q (j + 1) := by
      have := slot_next_end o hjl
      unfold slotE
      rw [if_pos hjl, this]
    rw [wp_bind, wp_bind, hd]
    refine wp_ok (b := v) (h' := h) (by simp [moveOut, ht, hb, hv]) ?_
    rw [hn, wp_bind]
    have hlt := slotE_lt o (j + 1)
    refine wp_construct hb (by omega) (.inl ht) ?_
    rw [wp_pure]
    refine wp_mono (ih (h := h.put id (some (b.set (slotE q (j + 1)) (some v)))) (j + 1) (b.set (slotE q (j + 1)) (some v))
      (by omega) (by simp [hl]) (by rw [List.getElem?_set, if_pos rfl, if_pos (by omega)]) (by simp)) (fun x => x) ?_
    rintro f h' ⟨hf, b', e, hb', h1, h2⟩
    refine ⟨hf, b', by rw [e]; simp [Heap.put]; funext i; split <;> rfl, hb', fun i hi hi' => ?_, fun s hs => ?_⟩
    · by_cases hij : j + 1 ≤ i
      · exact h1 i hij hi'
      · have : i = j := by omega
        subst this
        by_cases hex : ∃ i', i + 1 ≤ i' ∧ i' ≤ q.len ∧ slotE q i = slotE q i'
        · obtain ⟨i', e1, e2, e3⟩ := hex
          rw [e3]
          exact h1 i' e1 e2
        · rw [h2 _ (fun i' e1 e2 e3 => hex ⟨i', by omega, e2, e3⟩), List.getElem?_set, if_neg, hv]
          intro e3
          exact hex ⟨i + 1, by omega, by omega, e3.symm⟩
    · rw [h2 s (fun i e1 e2 => hs i (by omega) e2), List.getElem?_set, if_neg]
      intro e3
      exact hs (j + 1) (by omega) (by omega) e3.symm

theorem put_put (h : Heap α) (id : Nat) (b b' : Option (Buf α)) : (h.put id b).put id b' = h.put id b' := by
  simp only [Heap.put]
  congr 1
  funext i
  split <;> rfl

/-- What a list becomes when its element `k`, not the last one, is erased from a ring of `cap` slots. -/
def spoiled (l : List α) (k cap : Nat) (v : α) : List α :=
  ((List.range (l.length - 1)).map fun i =>
    if i = 0 ∧ l.length = cap then v else if i ≤ k then l[i]?.getD v else v)

theorem wp_eraseFirst_early {O : Prop} {T : Traits} {h : Heap α} {q : Queue} {l : List α} {a v : α} (ht : T.triv = true)
    (r : Rep T h q l) {k : Nat} (hk : k + 1 < l.length) (hka : l[k]? = some a) (hv : l[k + 1]? = some v)
    (hne : ∀ i, i < k → l[i]? ≠ some a) :
    wp O (eraseFirst T q a) h (fun p h' => p.1 = true ∧ Rep T h' p.2 (spoiled l k q.cap v) ∧
      Frame h q.data h' p.2.data ∧ p.2.cap = q.cap) := by
  unfold eraseFirst
  rw [wp_bind]
  have hst : 0 < l.length → startIdx q = slot q 0 :=
    fun hh => startIdx_eq (r.ok hh) (by rw [r.1]; exact hh)
  have r1 := r.1
  obtain ⟨id, b, hd, hid, ok, hb, ring⟩ := r.buf (fun e => by rw [e] at hk; simp at hk)
  have h1 := ok.cap0; have h2 := ok.capM; have h3 := ok.last; have h4 := ok.len
  have e : q.len = k + (l.length - k) := by omega
  rw [e]
  refine wp_eraseLoop_none (O := O) (a := a) r k 0 (by omega)
    (fun i hi _ h2 e => hne i (by omega) (by rw [List.getElem?_eq_getElem hi, e])) _ _ ?_ _ hst
  intro idx hidx
  have := hidx (by omega)
  subst this
  simp only [Nat.zero_add]
  rw [show l.length - k = (l.length - k - 1) + 1 by omega]
  unfold eraseLoop
  simp only [Bool.false_eq_true, if_false]
  rw [wp_bind, wp_bind]
  refine wp_read r (by omega) ?_
  have hkk : l[k]'(by omega) = a := by
    rw [List.getElem?_eq_getElem (by omega)] at hka
    exact Option.some.inj hka
  rw [if_pos hkk, wp_bind]
  refine wp_ok (b := ()) (h' := h) (by simp [destroy, ht]) ?_
  rw [wp_pure]
  have hn : (if slot q k = wsub q.cap 1 then 0 else slot q k + 1) = slotE q (k + 1) := by
    have := slot_next_end ok (k := k) (by omega)
    unfold slotE
    rw [this]
  rw [hn]
  have hbv : b[slotE q (k + 1)]? = some (some v) := by
    unfold slotE
    rw [if_pos (by omega), ring.elem (k + 1) hk]
    rw [List.getElem?_eq_getElem hk] at hv
    rw [Option.some.inj hv]
  refine wp_mono (wp_eraseLoop_found (O := O) (a := a) ht hd ok (l.length - k - 1) (k + 1) b (by omega) ring.size hbv hb) (fun x => x) ?_
  rintro f h' ⟨rfl, b', rfl, hb', g1, g2⟩
  rw [wp_pure]
  simp only [if_true]
  have ew : wsub q.cap 1 = q.cap - 1 := by simp only [wsub]; omega
  have hs : ∀ i, i < l.length - 1 → slot { q with len := k + (l.length - k - 1 + 1) - 1, last := if q.last ≠ 0 then q.last - 1 else wsub q.cap 1 } i = slot q i := by
    intro i hi
    rw [ew]
    simp only [slot]; split <;> split <;> split <;> omega
  refine ⟨trivial, ⟨by simp [spoiled]; omega, ?_⟩, by rw [hd]; exact Frame.put _ _ _, trivial⟩
  rw [hd]
  simp only [put_next, put_blk_self]
  refine ⟨hid, ⟨h1, h2, ?_, by simp; omega⟩, b', rfl, hb', ?_, .inl ht⟩
  · simp only [ew]; split <;> omega
  · intro i hi
    have hi' : i < l.length - 1 := by simpa [spoiled] using hi
    have hs' := hs i hi'
    rw [hd] at hs'
    rw [hs']
    have hval : (spoiled l k q.cap v)[i] = if i = 0 ∧ l.length = q.cap then v else if i ≤ k then l[i]?.getD v else v := by
      simp [spoiled]
    rw [hval]
    have hE : slotE q i = slot q i := by unfold slotE; rw [if_pos (by omega)]
    by_cases hc : i = 0 ∧ l.length = q.cap
    · rw [if_pos hc]
      have := g1 q.len (by omega) (Nat.le_refl _)
      have e2 : slotE q q.len = slot q i := by
        rw [hc.1]
        unfold slotE slot
        rw [if_neg (by omega)]
        split <;> omega
      rw [e2] at this
      exact this
    · rw [if_neg hc]
      by_cases hik : i ≤ k
      · rw [if_pos hik, g2 _ (fun i' e1 e2 e3 => ?_), ring.elem i (by omega), List.getElem?_eq_getElem (by omega)]
        · rfl
        · unfold slotE at e3
          split at e3
          · have := slot_inj ok (by omega) ‹_› e3
            omega
          · unfold slot at e3
            split at e3 <;> omega
      · rw [if_neg hik]
        have := g1 i (by omega) (by omega)
        rw [hE] at this
        exact this

/-- Owning elements: two or more elements after the match, and one is constructed over a live one. -/
theorem eraseFirst_leaks {T : Traits} {h : Heap α} {q : Queue} {l : List α} {a : α} (ht : T.triv = false)
    (r : Rep T h q l) {k : Nat} (hk : k + 2 < l.length) (hka : l[k]? = some a)
    (hne : ∀ i, i < k → l[i]? ≠ some a) : eraseFirst T q a h = .error .leak := by
  have r1 := r.1
  obtain ⟨id, b, hd, hid, ok, hb, ring⟩ := r.buf (fun e => by rw [e] at hk; simp at hk)
  have h1 := ok.cap0; have h2 := ok.capM; have h3 := ok.last; have h4 := ok.len
  have loop : ∀ (n i : Nat), i + n = k → eraseLoop T q a (l.length - i) (slot q i) false h =
      (eraseLoop T q a (l.length - k) (slot q k) false h : Res (Bool × Heap α)) := by
    intro n
    induction n with
    | zero => intro i hi; rw [show i = k by omega]
    | succ n ih =>
      intro i hi
      rw [show l.length - i = (l.length - (i + 1)) + 1 by omega, ← ih (i + 1) (by omega)]
      conv => lhs; unfold eraseLoop
      simp only [Bool.false_eq_true, if_false, bind, StateT.bind, Except.bind]
      have e1 : readAt q.data (slot q i) h = .ok (l[i]'(by omega), h) := by
        rw [hd]; simp [readAt, hb, ring.elem i (by omega)]
      rw [e1]
      simp only []
      rw [if_neg (fun e => hne i (by omega) (by rw [List.getElem?_eq_getElem (by omega), e]))]
      simp only [pure, StateT.pure, Except.pure]
      rw [slot_next ok (by omega)]
  have hlk : l[k]'(by omega) = a := by
    rw [List.getElem?_eq_getElem (by omega)] at hka
    exact Option.some.inj hka
  have main : (eraseLoop T q a (l.length - k) (slot q k) false h : Res (Bool × Heap α)) = .error .leak := by
    rw [show l.length - k = (l.length - k - 3) + 1 + 1 + 1 by omega]
    unfold eraseLoop
    simp only [Bool.false_eq_true, if_false, bind, StateT.bind, Except.bind]
    have e1 : readAt q.data (slot q k) h = .ok (l[k]'(by omega), h) := by
      rw [hd]; simp [readAt, hb, ring.elem k (by omega)]
    rw [e1]
    simp only []
    rw [if_pos hlk]
    simp only [StateT.bind, bind, Except.bind]
    have e2 : destroy T q.data (slot q k) h = .ok ((), h.put id (some (b.set (slot q k) none))) := by
      rw [hd]; simp [destroy, ht, hb, ring.elem k (by omega)]
    simp only [pure, StateT.pure, Except.pure]
    rw [e2]
    simp only []
    rw [slot_next ok (by omega)]
    unfold eraseLoop
    simp only [if_true, bind, StateT.bind, Except.bind]
    have n1 : slot q k ≠ slot q (k + 1) := fun e => by
      have := slot_inj ok (by omega) (by omega) e
      omega
    have n2 : slot q k ≠ slot q (k + 2) := fun e => by
      have := slot_inj ok (by omega) (by omega) e
      omega
    have n3 : slot q (k + 1) ≠ slot q (k + 2) := fun e => by
      have := slot_inj ok (by omega) (by omega) e
      omega
    have e3 : moveOut T q.data (slot q (k + 1)) (h.put id (some (b.set (slot q k) none))) =
        .ok (l[k + 1]'(by omega), (h.put id (some ((b.set (slot q k) none).set (slot q (k + 1)) none)))) := by
      rw [hd]
      simp [moveOut, ht, List.getElem?_set, n1, ring.elem (k + 1) (by omega), put_put]
    rw [e3]
    simp only []
    rw [slot_next ok (by omega)]
    have e4 : construct T q.data (slot q (k + 2)) (l[k + 1]'(by omega))
        (h.put id (some ((b.set (slot q k) none).set (slot q (k + 1)) none))) = .error .leak := by
      rw [hd]
      simp [construct, ht, List.getElem?_set, n2, n3, ring.elem (k + 2) (by omega)]
    rw [e4]
  unfold eraseFirst
  simp only [bind, StateT.bind, Except.bind]
  rw [r1, startIdx_eq ok (by omega)]
  have := loop k 0 (by omega)
  rw [Nat.sub_zero] at this
  rw [this, main]

end Queue
end Rpp
