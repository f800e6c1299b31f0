import Verif.Proof.QWorld

/-! Lemmas on cloning a queue of owning elements. -/

namespace Rpp
namespace Queue
variable {α : Type}

/-- What `clone` makes of the elements `l`: all but the last. -/
structure Torn (q : Queue) (c : Buf α) (l : List α) : Prop where
  size : c.length = q.cap
  elem : ∀ k (hk : k < l.length), k + 1 < l.length → c[slot q k]? = some (some l[k])
  last : c[slot q (l.length - 1)]? = some none

theorem wp_cloneLoop {O : Prop} {T : Traits} {q : Queue} {l : List α} {id d : Nat} {b : Buf α} (hlen : q.len = l.length)
    (o : q.Ok) (ring : Ring T q b l) (hd : q.data = some id) (hne : id ≠ d) :
    ∀ (n k fuel : Nat) (h : Heap α) (c : Buf α), k + n + 1 = l.length → n < fuel → h.blk id = some b → h.blk d = some c →
      c.length = q.cap → (∀ j (hj : j < l.length), j < k → c[slot q j]? = some (some l[j])) →
      (∀ j, k ≤ j → j < l.length → c[slot q j]? = some none) →
      wp O (cloneLoop T q (some d) (slot q (l.length - 1)) fuel (slot q k)) h
        (fun _ h' => ∃ c', h' = h.put d (some c') ∧ Torn q c' l) := by
  intro n
  induction n with
  | zero =>
    intro k fuel h c hk hf hb hc hs h1 h2
    cases fuel with
    | zero => omega
    | succ fuel =>
      have e : k = l.length - 1 := by omega
      rw [cloneLoop, if_pos (by rw [e])]
      rw [wp_pure]
      refine ⟨c, ?_, hs, fun j hj hj' => h1 j hj (by omega), by rw [← e]; exact h2 k (Nat.le_refl _) (by omega)⟩
      rw [← hc]
      exact (put_self h d).symm
  | succ n ih =>
    intro k fuel h c hk hf hb hc hs h1 h2
    cases fuel with
    | zero => omega
    | succ fuel =>
      have hlt : k < l.length := by omega
      rw [cloneLoop, if_neg (fun e => by have := slot_inj o (by omega) (by omega) e; omega), wp_bind, hd]
      refine wp_readAt hb (ring.elem k hlt) ?_
      rw [wp_bind]
      refine wp_construct hc (by rw [hs]; exact slot_lt o (by omega)) (.inr (h2 k (Nat.le_refl _) hlt)) ?_
      rw [slot_next o (by omega)]
      refine wp_mono (ih (k + 1) fuel _ (c.set (slot q k) (some l[k])) (by omega) (by omega)
        (by rw [put_blk_ne _ _ hne]; exact hb) (put_blk_self _ _ _) (by rw [List.length_set]; exact hs) ?_ ?_) (fun h => h) ?_
      · intro j hj hjk
        by_cases e : j = k
        · subst e
          rw [List.getElem?_set, if_pos rfl, if_pos (by rw [hs]; exact slot_lt o (by omega))]
        · rw [List.getElem?_set, if_neg (fun h => e (slot_inj o (by omega) (by omega) h).symm)]
          exact h1 j hj (by omega)
      · intro j hj hjl
        rw [List.getElem?_set, if_neg (fun h => by have := slot_inj o (by omega) (by omega) h; omega)]
        exact h2 j (by omega) hjl
      · rintro _ h' ⟨c', e, t⟩
        exact ⟨c', by rw [e, put_put], t⟩

/-- Cloning a queue with elements. -/
theorem wp_clone_torn {O : Prop} {T : Traits} {h : Heap α} {q : Queue} {l : List α} (ht : T.triv = false) (r : Rep T h q l)
    (hl : l ≠ []) (hO : h.lim < q.cap → O) :
    wp O (clone T q) h (fun v' h' => v' = { q with data := some h.next } ∧ ∃ c, h' = (afterAlloc q.cap h).put h.next (some c) ∧
      Torn q c l) := by
  obtain ⟨id, b, hd, hid, ok, hb, ring⟩ := r.buf hl
  have hpos := List.length_pos_iff.mpr hl
  have hlen := r.1
  unfold clone
  rw [wp_bind]
  refine wp_alloc ok.cap0 hO fun _ => ?_
  rw [if_neg (by rw [ht]; decide), wp_bind, endIdx_eq ok (by omega), startIdx_eq ok (by omega), hlen]
  have hbn : (afterAlloc q.cap h).blk h.next = some (List.replicate q.cap none) := by simp [afterAlloc_blk]
  refine wp_mono (wp_cloneLoop hlen ok ring hd (by omega) (l.length - 1) 0 (q.cap + 1) _ _ (by omega)
    (by have := ok.len; omega) (by rw [afterAlloc_blk, if_neg (by omega)]; exact hb) hbn (by simp) (by omega) ?_) (fun h => h) ?_
  · intro j _ hj
    rw [List.getElem?_replicate, if_pos (slot_lt ok (by omega))]
  · rintro _ h' ⟨c, e, t⟩
    rw [wp_pure]
    exact ⟨rfl, c, e, t⟩

/-- Destroying it. -/
theorem destroy_torn {T : Traits} {q : Queue} {l : List α} {d : Nat} (ht : T.triv = false) (hlen : q.len = l.length)
    (o : q.Ok) (hd : q.data = some d) : ∀ (n i : Nat) (h : Heap α) (c : Buf α), i + n + 1 = l.length → h.blk d = some c →
      (∀ k, i ≤ k → k + 1 < l.length → ∃ x, c[slot q k]? = some (some x)) → c[slot q (l.length - 1)]? = some none →
      forLoop (fun i => destroy T q.data (idxAt q i)) i (n + 1) h = .error .ub := by
  intro n
  induction n with
  | zero =>
    intro i h c hi hc _ hn
    have e : i = l.length - 1 := by omega
    have : destroy (α := α) T q.data (idxAt q i) h = .error .ub := by
      rw [idxAt_eq o (by omega), hd, e]
      simp [destroy, ht, hc, hn]
    simp only [forLoop, bind, StateT.bind, Except.bind, this]
  | succ n ih =>
    intro i h c hi hc he hn
    obtain ⟨x, hx⟩ := he i (Nat.le_refl _) (by omega)
    have : destroy (α := α) T q.data (idxAt q i) h = .ok ((), h.put d (some (c.set (slot q i) none))) := by
      rw [idxAt_eq o (by omega), hd]
      simp [destroy, ht, hc, hx]
    rw [forLoop]
    simp only [bind, StateT.bind, Except.bind, this]
    refine ih (i + 1) _ (c.set (slot q i) none) (by omega) (put_blk_self _ _ _) ?_ ?_
    · intro k hk hk'
      obtain ⟨y, hy⟩ := he k (by omega) hk'
      exact ⟨y, by rw [List.getElem?_set, if_neg (fun h => by have := slot_inj o (by omega) (by omega) h; omega)]; exact hy⟩
    · rw [List.getElem?_set, if_neg (fun h => by have := slot_inj o (by omega) (by omega) h; omega)]
      exact hn

theorem dtor_torn {T : Traits} {q : Queue} {l : List α} {d : Nat} {h : Heap α} {c : Buf α} (ht : T.triv = false)
    (hl : l ≠ []) (hlen : q.len = l.length) (o : q.Ok) (hd : q.data = some d) (hc : h.blk d = some c) (t : Torn q c l) :
    dtor T q h = .error .ub := by
  have hpos := List.length_pos_iff.mpr hl
  have := destroy_torn ht hlen o hd (l.length - 1) 0 h c (by omega) hc
    (fun k _ hk => ⟨_, t.elem k (by omega) hk⟩) t.last
  rw [show l.length - 1 + 1 = q.len by omega] at this
  simp only [dtor, clear, ht, bind, StateT.bind, Except.bind, Bool.not_false, if_true, this]

/-- Reading it. -/
theorem iterate_torn {q : Queue} {l : List α} {d : Nat} {h : Heap α} {c : Buf α} (hlen : q.len = l.length)
    (o : q.Ok) (hd : q.data = some d) (hc : h.blk d = some c) (t : Torn q c l) : ∀ (n i : Nat), i + n + 1 = l.length →
      iterate q i (n + 1) h = .error .ub := by
  intro n
  induction n with
  | zero =>
    intro i hi
    have e : i = l.length - 1 := by omega
    have : readAt (α := α) q.data (idxAt q i) h = .error .ub := by
      rw [idxAt_eq o (by omega), hd, e]
      simp [readAt, hc, t.last]
    simp only [iterate, bind, StateT.bind, Except.bind, this]
  | succ n ih =>
    intro i hi
    have : readAt (α := α) q.data (idxAt q i) h = .ok (l[i]'(by omega), h) := by
      rw [idxAt_eq o (by omega), hd]
      simp [readAt, hc, t.elem i (by omega) (by omega)]
    rw [iterate]
    simp only [bind, StateT.bind, Except.bind, this, ih (i + 1) (by omega)]

theorem back_torn {q : Queue} {l : List α} {d : Nat} {h : Heap α} {c : Buf α} (hl : l ≠ []) (hlen : q.len = l.length)
    (o : q.Ok) (hd : q.data = some d) (hc : h.blk d = some c) (t : Torn q c l) : back q h = .error .ub := by
  have hpos := List.length_pos_iff.mpr hl
  have : readAt (α := α) q.data (endIdx q) h = .error .ub := by
    rw [endIdx_eq o (by omega), hd, hlen]
    simp [readAt, hc, t.last]
  simp only [back, bind, StateT.bind, Except.bind, require]
  rw [if_pos (by simp; omega)]
  exact this

/-- Cloning an empty queue that has room for more than one element. -/
theorem clone_empty {T : Traits} {h : Heap α} {q : Queue} (ht : T.triv = false) (r : Rep T h q ([] : List α)) (hc : 1 < q.cap)
    (hO : q.cap ≤ h.lim) : clone T q h = .error .ub := by
  obtain ⟨r1, r2⟩ := r
  cases hd : q.data with
  | none => simp only [hd] at r2; omega
  | some id =>
    simp only [hd] at r2
    obtain ⟨hid, ok, b, hb, ring⟩ := r2
    have h1 := ok.last
    have h2 := ok.capM
    have r1' : q.len = 0 := r1
    have hraw : b[q.last]? = some none := by
      rcases ring.raw with h | h
      · rw [ht] at h; cases h
      · exact h q.last h1 (fun k hk => by omega)
    have hst : startIdx q = q.last := by
      unfold startIdx
      dsimp only
      rw [r1', show wsub q.last 0 = q.last by simp only [wsub]; omega, if_neg (by omega)]
    have hen : endIdx q ≠ q.last := by
      unfold endIdx
      rw [if_neg (by omega)]
      split <;> omega
    have ha : alloc (α := α) q.cap h = .ok (some h.next, afterAlloc q.cap h) := by
      unfold alloc
      rw [if_neg (by omega), if_neg (by omega)]
      rfl
    have hr : readAt (α := α) q.data q.last (afterAlloc q.cap h) = .error .ub := by
      rw [hd]
      simp [readAt, afterAlloc_blk, show id ≠ h.next by omega, hb, hraw]
    unfold clone
    simp only [bind, StateT.bind, Except.bind, ha, ht]
    rw [if_neg (by decide), hst, cloneLoop, if_neg hen.symm]
    simp only [bind, StateT.bind, Except.bind, hr]

end Queue
end Rpp
