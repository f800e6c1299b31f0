import Verif.Model.Vec
import Verif.Proof.Mem

/-! Representation invariant of `Vec` and the effect of each operation on it. -/

namespace Rpp
variable {α : Type _}

theorem put_put (h : Heap α) (id : Nat) (a b) : (h.put id a).put id b = h.put id b := by
  simp only [Heap.put]
  congr 1
  funext j; by_cases hj : j = id <;> simp [hj]

theorem put_self (h : Heap α) (id : Nat) : h.put id (h.blk id) = h := by
  cases h with
  | mk n l bl =>
    simp only [Heap.put]
    congr 1
    funext j; by_cases hj : j = id <;> simp [hj]

theorem put_comm (h : Heap α) {i j : Nat} (a b) (hij : i ≠ j) :
    (h.put i a).put j b = (h.put j b).put i a := by
  simp only [Heap.put]
  congr 1
  funext k
  by_cases h1 : k = j <;> by_cases h2 : k = i <;> simp_all

theorem set_mid {β : Type _} (pre : List β) (c d : β) (post : List β) :
    (pre ++ c :: post).set pre.length d = pre ++ d :: post := by
  simp [List.set_append]

theorem get_mid {β : Type _} (pre : List β) (c : β) (post : List β) :
    (pre ++ c :: post)[pre.length]? = some c := by
  simp

/-- `forLoop` of constructions fills a stretch of raw cells. -/
theorem loop_construct {O : Prop} {T : Traits} {id : Nat} {d : α} {Q : Unit → Heap α → Prop} :
    ∀ (mid pre post : Buf α) (h : Heap α), h.blk id = some (pre ++ mid ++ post) →
    (T.triv = true ∨ ∀ c ∈ mid, c = none) →
    Q () (h.put id (some (pre ++ List.replicate mid.length (some d) ++ post))) →
    wp O (forLoop (fun i => construct T (some id) i d) pre.length mid.length) h Q := by
  intro mid
  induction mid with
  | nil =>
    intro pre post h hb _ hq
    have : h.put id (some (pre ++ post)) = h := by
      have := put_self h id; rw [hb] at this; simpa using this
    simpa [forLoop, wp_pure, this] using hq
  | cons c mid ih =>
    intro pre post h hb hr hq
    simp only [List.length_cons, forLoop]
    rw [wp_bind]
    refine wp_construct hb (by simp) ?_ ?_
    · rcases hr with hr | hr
      · exact Or.inl hr
      · right; rw [hr c (by simp)]; simp
    · have e : (pre ++ c :: mid ++ post).set pre.length (some d) = (pre ++ [some d]) ++ mid ++ post := by
        simp [set_mid]
      have := ih (pre ++ [some d]) post (h.put id (some ((pre ++ [some d]) ++ mid ++ post)))
        (by simp) (by rcases hr with hr | hr
                      · exact Or.inl hr
                      · exact Or.inr fun c hc => hr c (by simp [hc])) ?_
      · rw [e]; simpa using this
      · rw [put_put]; simpa [List.replicate_succ] using hq

/-- `forLoop` of destructor calls empties a stretch of live cells. -/
theorem loop_destroy {O : Prop} {T : Traits} {id : Nat} {Q : Unit → Heap α → Prop}
    (ht : T.triv = false) :
    ∀ (mid : List α) (pre post : Buf α) (h : Heap α),
    h.blk id = some (pre ++ mid.map some ++ post) →
    Q () (h.put id (some (pre ++ List.replicate mid.length none ++ post))) →
    wp O (forLoop (fun i => destroy T (some id) i) pre.length mid.length) h Q := by
  intro mid
  induction mid with
  | nil =>
    intro pre post h hb hq
    have : h.put id (some (pre ++ post)) = h := by
      have := put_self h id; rw [hb] at this; simpa using this
    simpa [forLoop, wp_pure, this] using hq
  | cons c mid ih =>
    intro pre post h hb hq
    simp only [List.length_cons, forLoop]
    rw [wp_bind]
    refine wp_destroy (x := c) ht hb (by simp) ?_
    have e : (pre ++ (c :: mid).map some ++ post).set pre.length none
        = (pre ++ [none]) ++ mid.map some ++ post := by
      simp [set_mid]
    have := ih (pre ++ [none]) post (h.put id (some ((pre ++ [none]) ++ mid.map some ++ post)))
      (by simp) ?_
    · rw [e]; simpa using this
    · rw [put_put]; simpa [List.replicate_succ] using hq

/-- `forLoop` that moves elements from one block to another. -/
theorem loop_move {O : Prop} {T : Traits} {s d : Nat} {Q : Unit → Heap α → Prop}
    (ht : T.triv = false) (hsd : s ≠ d) :
    ∀ (mid : List α) (pre post pre' mid' post' : Buf α) (h : Heap α),
    h.blk s = some (pre ++ mid.map some ++ post) →
    h.blk d = some (pre' ++ mid' ++ post') → mid'.length = mid.length →
    (∀ c ∈ mid', c = none) →
    Q () ((h.put s (some (pre ++ List.replicate mid.length none ++ post))).put d
          (some (pre' ++ mid.map some ++ post'))) →
    ∀ (off doff n : Nat), off = pre.length → doff = pre'.length → n = mid.length →
    ∀ (i : Nat) (f g : Nat → Nat), (∀ k, k < n → f (i + k) = off + k) →
    (∀ k, k < n → g (i + k) = doff + k) →
    wp O (forLoop (fun i => do
        let x ← moveOut T (some s) (f i)
        construct T (some d) (g i) x) i n) h Q := by
  intro mid
  induction mid with
  | nil =>
    intro pre post pre' mid' post' h hs hd hl _ hq off doff n _ _ hn i f g _ _
    subst hn
    have hm : mid' = [] := by simpa using hl
    have e1 : h.put s (some (pre ++ post)) = h := by
      have := put_self h s; rw [hs] at this; simpa using this
    have e2 : h.put d (some (pre' ++ post')) = h := by
      have := put_self h d; rw [hd] at this; simpa [hm] using this
    simpa [forLoop, wp_pure, e1, e2] using hq
  | cons c mid ih =>
    intro pre post pre' mid' post' h hs hd hl hr hq off doff n ho hdo hn i f g hf hg
    subst hn
    cases mid' with
    | nil => simp at hl
    | cons c' mid' =>
    simp only [List.length_cons, forLoop]
    have hc' : c' = none := hr c' (by simp)
    subst hc'
    have f0 : f i = pre.length := by have := hf 0 (by simp); simp at this; omega
    have g0 : g i = pre'.length := by have := hg 0 (by simp); simp at this; omega
    rw [wp_bind, wp_bind, f0, g0]
    refine wp_moveOut (x := c) ht hs (by simp) ?_
    have e : (pre ++ (c :: mid).map some ++ post).set pre.length none
        = (pre ++ [none]) ++ mid.map some ++ post := by
      simp [set_mid]
    rw [e]
    have hd1 : (h.put s (some ((pre ++ [none]) ++ mid.map some ++ post))).blk d
        = some (pre' ++ none :: mid' ++ post') := by
      rw [put_blk_ne _ _ (Ne.symm hsd), hd]
    refine wp_construct hd1 (by simp) (Or.inr (by simp)) ?_
    have e' : (pre' ++ none :: mid' ++ post').set pre'.length (some c)
        = (pre' ++ [some c]) ++ mid' ++ post' := by
      simp [set_mid]
    rw [e']
    refine ih (pre ++ [none]) post (pre' ++ [some c]) mid' post' _ ?_ ?_ (by simpa using hl)
      (fun x hx => hr x (by simp [hx])) ?_ (off + 1) (doff + 1) mid.length (by simp [ho])
      (by simp [hdo]) rfl (i + 1) f g ?_ ?_
    · rw [put_blk_ne _ _ hsd]; simp
    · simp
    · rw [put_comm (h.put s _) _ _ (Ne.symm hsd), put_put, put_put]
      simpa [List.replicate_succ] using hq
    · intro k hk
      have e1 : i + 1 + k = i + (1 + k) := by omega
      rw [e1, hf _ (by simp; omega)]; omega
    · intro k hk
      have e1 : i + 1 + k = i + (1 + k) := by omega
      rw [e1, hg _ (by simp; omega)]; omega

namespace Vec

theorem Rep.lt {T : Traits} {h : Heap α} {v : Vec} {l : List α} (r : Rep T h v l) :
    ∀ j, v.data = some j → j < h.next := by
  intro j hj; simp only [Rep, hj] at r; exact r.2.1

theorem Rep.nil (T : Traits) (h : Heap α) : Rep T h Vec.nil ([] : List α) := by
  simp [Rep, Vec.nil]

theorem Rep.len_le {T : Traits} {h : Heap α} {v : Vec} {l : List α} (r : Rep T h v l) :
    v.len ≤ v.cap := by
  obtain ⟨h1, h2⟩ := r
  cases hd : v.data with
  | none => simp only [hd] at h2; simp [h2.2] at h1; omega
  | some id => simp only [hd] at h2; obtain ⟨_, _, t, _, h3, _⟩ := h2; omega

/-- A vector is unaffected by changes to other blocks. -/
theorem Rep.congr {T : Traits} {h h' : Heap α} {v : Vec} {l : List α} (r : Rep T h v l)
    (hn : h.next ≤ h'.next) (hb : ∀ j, v.data = some j → h'.blk j = h.blk j) : Rep T h' v l := by
  obtain ⟨h1, h2⟩ := r
  refine ⟨h1, ?_⟩
  cases hd : v.data with
  | none => simpa only [hd] using h2
  | some id =>
    simp only [hd] at h2 ⊢
    rw [hb id hd]
    exact ⟨by omega, h2.2⟩

theorem wp_withCapacity {O : Prop} {T : Traits} {n : Nat} {h : Heap α} (hO : h.lim < n → O) :
    wp O (withCapacity n) h (fun v h' => Rep T h' v [] ∧ Frame h none h' v.data ∧ v.cap = n) := by
  unfold withCapacity
  rw [wp_bind]
  by_cases hn : n = 0
  · subst hn
    refine wp_ok (alloc_zero h) ?_
    rw [wp_pure]
    exact ⟨by simp [Rep], Frame.refl _ _, rfl⟩
  · refine wp_alloc (by omega) hO ?_
    intro hl
    rw [wp_pure]
    refine ⟨?_, ?_, rfl⟩
    · simp only [Rep, List.length_nil, List.map_nil, List.nil_append, true_and]
      refine ⟨by simp, by omega, List.replicate n none, ?_, by simp, Or.inr ?_⟩
      · simp [afterAlloc_blk]
      · intro c hc; exact (List.mem_replicate.mp hc).2
    · refine ⟨by simp, by simp, ?_, Or.inr ⟨?_, by simp⟩⟩
      · intro j _ hj
        rw [afterAlloc_blk, if_neg]
        intro e; exact hj (by simp [e])
      · intro j hj; simp at hj; subst hj; simp

theorem wp_reserve {O : Prop} {T : Traits} {n : Nat} {h : Heap α} {v : Vec} {l : List α}
    (hw : h.WF) (r : Rep T h v l) (hO : h.lim < n → O) :
    wp O (reserve T v n) h (fun v' h' => Rep T h' v' l ∧ Frame h v.data h' v'.data ∧
      v'.cap = max v.cap n) := by
  unfold reserve
  by_cases hn : n ≤ v.cap
  · rw [if_pos hn, wp_pure]
    exact ⟨r, Frame.refl _ _, by omega⟩
  · rw [if_neg hn, wp_bind]
    refine wp_alloc (by omega) hO ?_
    intro hl
    obtain ⟨r1, r2⟩ := r
    cases hd : v.data with
    | none =>
      simp only [hd] at r2
      obtain ⟨r2, rfl⟩ := r2
      simp only [Option.isSome_none, Bool.false_and, Bool.false_eq_true, if_false]
      rw [wp_bind, wp_pure, wp_bind]
      refine wp_ok (free_null _) ?_
      rw [wp_pure]
      refine ⟨?_, ?_, by simp; omega⟩
      · simp only [Rep, r1, List.length_nil, List.map_nil, List.nil_append, true_and]
        refine ⟨by simp, by omega, List.replicate n none, ?_, by simp, Or.inr ?_⟩
        · simp [afterAlloc_blk]
        · intro c hc; exact (List.mem_replicate.mp hc).2
      · refine ⟨by simp, by simp, ?_, Or.inr ⟨?_, by simp⟩⟩
        · intro j _ hj
          rw [afterAlloc_blk, if_neg]
          intro e; exact hj (by simp [e])
        · intro j hj; simp at hj; subst hj; simp
    | some id =>
      simp only [hd] at r2
      obtain ⟨hid, hc0, tail, hb, ht, htr⟩ := r2
      simp only [Option.isSome_some, Bool.and_self, if_true]
      have hne : id ≠ h.next := by omega
      have hbid : (afterAlloc n h).blk id = some (l.map some ++ tail) := by
        rw [afterAlloc_blk, if_neg hne, hb]
      have hbn : (afterAlloc n h).blk h.next = some (List.replicate n none) := by
        simp [afterAlloc_blk]
      have fin : ∀ (old : Buf α), (T.triv = true ∨ ∀ c ∈ old, c = none) →
          ∀ h2, h2 = ((afterAlloc n h).put id (some old)).put h.next
            (some (l.map some ++ List.replicate (n - l.length) none)) →
          wp O (do free T (some id); return { v with cap := n, data := some h.next }) h2
            (fun v' h' => Rep T h' v' l ∧ Frame h (some id) h' v'.data ∧ v'.cap = max v.cap n) := by
        intro old hold h2 e
        rw [wp_bind]
        refine wp_free (b := old) ?_ hold ?_
        · rw [e, put_blk_ne _ _ hne]; simp
        · rw [wp_pure]
          refine ⟨?_, ?_, by simp; omega⟩
          · simp only [Rep, r1, true_and]
            refine ⟨by simp [e], by omega, List.replicate (n - l.length) none, ?_, ?_, Or.inr ?_⟩
            · rw [put_blk_ne _ _ (Ne.symm hne), e]; simp
            · simp; omega
            · intro c hc; exact (List.mem_replicate.mp hc).2
          · refine ⟨by simp [e], by simp [e], ?_, Or.inr ⟨?_, ?_⟩⟩
            · intro j hj hj'
              have h1 : j ≠ id := fun e => hj (by rw [e])
              have h2 : j ≠ h.next := fun e => hj' (by simp [e])
              rw [put_blk_ne _ _ h1, e, put_blk_ne _ _ h2, put_blk_ne _ _ h1, afterAlloc_blk, if_neg h2]
            · intro j hj; simp at hj; subst hj; simp [e]
            · intro j hj; simp at hj; subst hj; simp
      rw [wp_bind]
      by_cases htv : T.triv = true
      · rw [if_pos htv]
        refine wp_memcpy hbn hbid (by simp; omega) (by simp; omega) ?_ ?_
        · refine fin (l.map some ++ tail) (Or.inl htv) _ ?_
          rw [← hbid, put_self]
          congr 2
          simp [r1, List.take_append]
        · intro h0
          refine fin (l.map some ++ tail) (Or.inl htv) _ ?_
          have hl0 : l = [] := by rw [← List.length_eq_zero_iff]; omega
          rw [← hbid, put_self, hl0]
          have : some (List.map some ([] : List α) ++ List.replicate (n - ([] : List α).length) none)
              = (afterAlloc n h).blk h.next := by rw [hbn]; simp
          rw [this, put_self]
      · rw [if_neg htv]
        have htf : T.triv = false := by simpa using htv
        have hbn' : (afterAlloc n h).blk h.next
            = some ([] ++ List.replicate l.length none ++ List.replicate (n - l.length) none) := by
          rw [hbn]; simp; omega
        have hb' : (afterAlloc n h).blk id = some ([] ++ l.map some ++ tail) := by
          rw [hbid]; simp
        refine loop_move (T := T) htf hne l [] tail [] (List.replicate l.length none)
          (List.replicate (n - l.length) none) _ hb' hbn' (by simp)
          (fun c hc => (List.mem_replicate.mp hc).2) ?_ 0 0 v.len (by simp) (by simp) r1 0
          (fun i => i) (fun i => i) (by simp) (by simp)
        refine fin ([] ++ List.replicate l.length none ++ tail) ?_ _ (by simp)
        rcases htr with h1 | h1
        · exact Or.inl h1
        · right; intro c hc
          simp only [List.nil_append, List.mem_append] at hc
          rcases hc with hc | hc
          · exact (List.mem_replicate.mp hc).2
          · exact h1 c hc

theorem wp_grow {O : Prop} {T : Traits} {h : Heap α} {v : Vec} {l : List α}
    (hw : h.WF) (r : Rep T h v l) (hO : h.lim < max 8 (2 * v.cap) → O) :
    wp O (grow T v) h (fun v' h' => Rep T h' v' l ∧ Frame h v.data h' v'.data ∧
      v.cap < v'.cap ∧ v'.cap ≤ max 8 (2 * v.cap)) := by
  unfold grow
  refine wp_mono (wp_reserve hw r (O := O) ?_) id ?_
  · split <;> intro hh <;> apply hO <;> omega
  · rintro v' h' ⟨h1, h2, h3⟩
    refine ⟨h1, h2, ?_, ?_⟩ <;> rw [h3] <;> split <;> omega

/-- Writing one element behind the last. -/
theorem wp_push {O : Prop} {T : Traits} {h : Heap α} {v : Vec} {l : List α} {x : α}
    (hw : h.WF) (r : Rep T h v l) (hO : v.len = v.cap → h.lim < max 8 (2 * v.cap) → O) :
    wp O (push T v x) h (fun v' h' => Rep T h' v' (l ++ [x]) ∧ Frame h v.data h' v'.data ∧
      v'.cap ≤ max v.cap (max 8 (2 * v.len))) := by
  unfold push
  -- the part after making room
  have rest : ∀ (v1 : Vec) (h1 : Heap α), h1.WF → Rep T h1 v1 l → Frame h v.data h1 v1.data →
      v1.len < v1.cap → v1.cap ≤ max v.cap (max 8 (2 * v.len)) →
      wp O (do
        require (v1.len < v1.cap)
        construct T v1.data v1.len x
        return { v1 with len := v1.len + 1 }) h1
      (fun v' h' => Rep T h' v' (l ++ [x]) ∧ Frame h v.data h' v'.data ∧
        v'.cap ≤ max v.cap (max 8 (2 * v.len))) := by
    intro v1 h1 hw1 r1 f1 hlt hcap
    have rlt := r1.lt
    obtain ⟨ra, rb⟩ := r1
    rw [wp_bind]
    refine wp_require _ _ _ (by simpa using hlt) ?_
    rw [wp_bind]
    cases hd : v1.data with
    | none => simp only [hd] at rb; omega
    | some id =>
      simp only [hd] at rb f1
      obtain ⟨hid, hc0, tail, hb, ht, htr⟩ := rb
      cases tail with
      | nil => simp at ht; omega
      | cons c tail =>
      have hlen : v1.len = (l.map some).length := by simp [ra]
      rw [hlen]
      refine wp_construct hb (by simp) ?_ ?_
      · rcases htr with h1 | h1
        · exact Or.inl h1
        · right; rw [h1 c (by simp)]; exact get_mid _ _ _
      · rw [wp_pure, set_mid]
        refine ⟨?_, ?_, by simpa using hcap⟩
        · simp only [Rep, ra, List.length_append, List.length_singleton, List.length_map, true_and,
            put_next]
          refine ⟨hid, hc0, tail, by simp, by simp at ht; omega, ?_⟩
          rcases htr with h1 | h1
          · exact Or.inl h1
          · exact Or.inr fun c hc => h1 c (by simp [hc])
        · exact f1.trans (Frame.put _ _ _) hw r.lt
  rw [wp_bind]
  by_cases hf : v.len = v.cap
  · rw [if_pos hf]
    refine wp_mono (wp_grow hw r (hO hf)) id ?_
    rintro v1 h1 ⟨r1, f1, hlt, hle⟩
    refine rest v1 h1 (f1.wf hw r.lt) r1 f1 ?_ ?_
    · have := r.1; have := r1.1; omega
    · rw [hf]; omega
  · rw [if_neg hf, wp_pure]
    refine rest v h hw r (Frame.refl _ _) ?_ (by omega)
    have := r.len_le; omega

theorem Rep.get {T : Traits} {h : Heap α} {v : Vec} {l : List α} (r : Rep T h v l) {i : Nat}
    (hi : i < l.length) : ∃ id b, v.data = some id ∧ h.blk id = some b ∧ b[i]? = some (some l[i]) := by
  obtain ⟨r1, r2⟩ := r
  cases hd : v.data with
  | none => simp only [hd] at r2; simp [r2.2] at hi
  | some id =>
    simp only [hd] at r2
    obtain ⟨hid, hc0, tail, hb, ht, htr⟩ := r2
    exact ⟨id, _, rfl, hb, by simp [List.getElem?_append, hi]⟩

theorem wp_read {O : Prop} {T : Traits} {h : Heap α} {v : Vec} {l : List α} (r : Rep T h v l)
    {i : Nat} (hi : i < l.length) {Q : α → Heap α → Prop} (hq : Q l[i] h) :
    wp O (readAt v.data i) h Q := by
  obtain ⟨id, b, hd, hb, hx⟩ := r.get hi
  rw [hd]; exact wp_readAt hb hx hq

theorem wp_get {O : Prop} {T : Traits} {h : Heap α} {v : Vec} {l : List α} (r : Rep T h v l)
    {i : Nat} (hi : i < l.length) : wp O (get v i) h (fun x h' => x = l[i] ∧ h' = h) := by
  unfold get
  rw [wp_bind]
  refine wp_require _ _ _ (by simp [r.1, hi]) ?_
  exact wp_read r hi ⟨rfl, rfl⟩

theorem wp_front {O : Prop} {T : Traits} {h : Heap α} {v : Vec} {l : List α} (r : Rep T h v l)
    (hi : l ≠ []) : wp O (front v) h (fun x h' => x = l.head hi ∧ h' = h) := by
  unfold front
  have hl := List.length_pos_iff.mpr hi
  rw [wp_bind]
  refine wp_require _ _ _ (by simpa [r.1] using hl) ?_
  exact wp_read r hl ⟨by rw [List.head_eq_getElem], rfl⟩

theorem wp_back {O : Prop} {T : Traits} {h : Heap α} {v : Vec} {l : List α} (r : Rep T h v l)
    (hi : l ≠ []) : wp O (back v) h (fun x h' => x = l.getLast hi ∧ h' = h) := by
  unfold back
  have hl := List.length_pos_iff.mpr hi
  rw [wp_bind]
  refine wp_require _ _ _ (by simpa [r.1] using hl) ?_
  rw [r.1]
  exact wp_read r (by omega) ⟨by rw [List.getLast_eq_getElem], rfl⟩

theorem wp_set {O : Prop} {T : Traits} {h : Heap α} {v : Vec} {l : List α} (r : Rep T h v l)
    {i : Nat} (hi : i < l.length) (x : α) :
    wp O (set v i x) h (fun _ h' => Rep T h' v (l.set i x) ∧ Frame h v.data h' v.data) := by
  unfold set
  rw [wp_bind]
  refine wp_require _ _ _ (by simp [r.1, hi]) ?_
  obtain ⟨r1, r2⟩ := r
  cases hd : v.data with
  | none => simp only [hd] at r2; simp [r2.2] at hi
  | some id =>
    simp only [hd] at r2
    obtain ⟨hid, hc0, tail, hb, ht, htr⟩ := r2
    refine wp_assignAt (y := l[i]) hb (by simp [List.getElem?_append, hi]) ?_
    refine ⟨?_, Frame.put _ _ _⟩
    simp only [Rep, hd, r1, List.length_set, true_and]
    exact ⟨hid, hc0, tail, by simp [List.set_append, hi, List.map_set], ht, htr⟩

theorem wp_iterate {O : Prop} {T : Traits} {h : Heap α} {v : Vec} {l : List α} (r : Rep T h v l) :
    ∀ (n i : Nat), i + n = l.length →
    wp O (iterate v i n) h (fun xs h' => xs = l.drop i ∧ h' = h) := by
  intro n
  induction n with
  | zero => intro i hi; simp [iterate, wp_pure]; omega
  | succ n ih =>
    intro i hi
    simp only [iterate]
    rw [wp_bind]
    have hlt : i < l.length := by omega
    refine wp_read r hlt ?_
    rw [wp_bind]
    refine wp_mono (ih (i + 1) (by omega)) id ?_
    rintro xs h' ⟨rfl, rfl⟩
    rw [wp_pure]
    exact ⟨by rw [List.drop_eq_getElem_cons hlt], rfl⟩

/-- Destroying all elements. -/
theorem wp_destroyAll {O : Prop} {T : Traits} {h : Heap α} {v : Vec} {l : List α}
    (r : Rep T h v l) (ht : T.triv = false) :
    wp O (forLoop (fun i => destroy T v.data i) 0 v.len) h
      (fun _ h' => Rep T h' { v with len := 0 } [] ∧ Frame h v.data h' v.data) := by
  have r0 := r
  obtain ⟨r1, r2⟩ := r
  cases hd : v.data with
  | none =>
    simp only [hd] at r2
    obtain ⟨hc, rfl⟩ := r2
    simp only [r1, List.length_nil, forLoop, wp_pure]
    exact ⟨by simp [Rep, hd, hc], Frame.refl _ _⟩
  | some id =>
    simp only [hd] at r2
    obtain ⟨hid, hc0, tail, hb, hl, htr⟩ := r2
    rw [r1]
    have hb' : h.blk id = some ([] ++ l.map some ++ tail) := by simp [hb]
    refine loop_destroy (T := T) ht l [] tail h hb' ?_
    refine ⟨?_, Frame.put _ _ _⟩
    simp only [Rep, hd, List.length_nil, List.map_nil, List.nil_append, true_and]
    refine ⟨hid, hc0, List.replicate l.length none ++ tail, by simp, by simp; omega, ?_⟩
    rcases htr with h1 | h1
    · exact Or.inl h1
    · right; intro c hc
      simp only [List.mem_append] at hc
      rcases hc with hc | hc
      · exact (List.mem_replicate.mp hc).2
      · exact h1 c hc

/-- For plain data the vector can be shortened without touching memory. -/
theorem Rep.truncate {T : Traits} {h : Heap α} {v : Vec} {l : List α} (r : Rep T h v l)
    (ht : T.triv = true) (n : Nat) (hn : n ≤ l.length) : Rep T h { v with len := n } (l.take n) := by
  obtain ⟨r1, r2⟩ := r
  refine ⟨by simp; omega, ?_⟩
  cases hd : v.data with
  | none => simp only [hd] at r2; simp [r2]
  | some id =>
    simp only [hd] at r2
    obtain ⟨hid, hc0, tail, hb, hl, htr⟩ := r2
    refine ⟨hid, hc0, (l.drop n).map some ++ tail, ?_, ?_, Or.inl ht⟩
    · rw [hb, ← List.append_assoc, ← List.map_append, List.take_append_drop]
    · simp; omega

theorem wp_clear {O : Prop} {T : Traits} {h : Heap α} {v : Vec} {l : List α} (r : Rep T h v l) :
    wp O (clear T v) h (fun v' h' => Rep T h' v' [] ∧ Frame h v.data h' v'.data ∧ v'.cap = v.cap) := by
  unfold clear
  rw [wp_bind]
  by_cases ht : T.triv = true
  · simp only [ht, Bool.not_true, Bool.false_eq_true, if_false]
    rw [wp_pure, wp_pure]
    exact ⟨by simpa using r.truncate ht 0 (by omega), Frame.refl _ _, rfl⟩
  · have htf : T.triv = false := by simpa using ht
    simp only [htf, Bool.not_false, if_true]
    refine wp_mono (wp_destroyAll r htf) id ?_
    rintro _ h' ⟨h1, h2⟩
    exact ⟨h1, h2, rfl⟩

theorem wp_freeEmpty {O : Prop} {T : Traits} {h : Heap α} {v : Vec} {l : List α}
    (r : Rep T h v l) (hl : T.triv = true ∨ l = []) :
    wp O (free T v.data) h (fun _ h' => Frame h v.data h' none) := by
  obtain ⟨r1, r2⟩ := r
  cases hd : v.data with
  | none => exact wp_ok (free_null _) (Frame.refl _ _)
  | some id =>
    simp only [hd] at r2
    obtain ⟨hid, hc0, tail, hb, ht, htr⟩ := r2
    refine wp_free hb ?_ ?_
    · rcases hl with h1 | rfl
      · exact Or.inl h1
      · simpa using htr
    · refine ⟨by simp, by simp, ?_, Or.inr ⟨by simp, ?_⟩⟩
      · intro j hj _; exact put_blk_ne _ _ (fun e => hj (by rw [e]))
      · intro j hj; simp at hj; subst hj; simp

theorem wp_dtor {O : Prop} {T : Traits} {h : Heap α} {v : Vec} {l : List α} (hw : h.WF)
    (r : Rep T h v l) :
    wp O (dtor T v) h (fun v' h' => v' = Vec.nil ∧ Frame h v.data h' none) := by
  unfold dtor
  rw [wp_bind]
  by_cases ht : T.triv = true
  · simp only [ht, Bool.not_true, Bool.false_eq_true, if_false]
    rw [wp_pure, wp_bind]
    refine wp_mono (wp_freeEmpty r (Or.inl ht)) id ?_
    intro _ h' f
    rw [wp_pure]; exact ⟨rfl, f⟩
  · have htf : T.triv = false := by simpa using ht
    simp only [htf, Bool.not_false, if_true]
    refine wp_mono (wp_destroyAll r htf) id ?_
    rintro _ h1 ⟨r1, f1⟩
    rw [wp_bind]
    refine wp_mono (wp_freeEmpty (v := { v with len := 0 }) r1 (Or.inr rfl)) id ?_
    intro _ h' f
    rw [wp_pure]; exact ⟨rfl, f1.trans f hw r.lt⟩

theorem wp_pop {O : Prop} {T : Traits} {h : Heap α} {v : Vec} {l : List α} (r : Rep T h v l)
    (hl : l ≠ []) :
    wp O (pop T v) h (fun v' h' => Rep T h' v' l.dropLast ∧ Frame h v.data h' v'.data ∧
      v'.cap = v.cap) := by
  unfold pop
  have hpos := List.length_pos_iff.mpr hl
  rw [wp_bind]
  refine wp_require _ _ _ (by simpa [r.1] using hpos) ?_
  rw [wp_bind]
  by_cases ht : T.triv = true
  · simp only [ht, Bool.not_true, Bool.false_eq_true, if_false]
    rw [wp_pure, wp_pure]
    refine ⟨?_, Frame.refl _ _, rfl⟩
    rw [List.dropLast_eq_take]
    have := r.truncate ht (l.length - 1) (by omega)
    rw [r.1]; exact this
  · have htf : T.triv = false := by simpa using ht
    simp only [htf, Bool.not_false, if_true]
    obtain ⟨r1, r2⟩ := r
    cases hd : v.data with
    | none => simp only [hd] at r2; exact absurd r2.2 hl
    | some id =>
      simp only [hd] at r2
      obtain ⟨hid, hc0, tail, hb, hc, htr⟩ := r2
      have hsplit := List.dropLast_concat_getLast hl
      have hb' : h.blk id = some (l.dropLast.map some ++ some (l.getLast hl) :: tail) := by
        rw [hb]; conv => lhs; rw [← hsplit]
        simp
      have hlen : v.len - 1 = (l.dropLast.map some).length := by simp [r1]
      rw [hlen]
      refine wp_destroy (x := l.getLast hl) htf hb' (get_mid _ _ _) ?_
      rw [wp_pure, set_mid]
      refine ⟨?_, Frame.put _ _ _, rfl⟩
      simp only [Rep, List.length_map, true_and]
      refine ⟨hid, hc0, none :: tail, by simp, by simp; omega, ?_⟩
      rcases htr with h1 | h1
      · exact Or.inl h1
      · right; intro c hc
        simp only [List.mem_cons] at hc
        rcases hc with hc | hc
        · exact hc
        · exact h1 c hc

theorem wp_resize {O : Prop} {T : Traits} {h : Heap α} {v : Vec} {l : List α} {d : α} {n : Nat}
    (hw : h.WF) (r : Rep T h v l) (hO : h.lim < n → O) :
    wp O (resize T d v n) h (fun v' h' =>
      Rep T h' v' (l.take n ++ List.replicate (n - l.length) d) ∧ Frame h v.data h' v'.data ∧
      v'.cap = max v.cap n) := by
  unfold resize
  rw [wp_bind]
  refine wp_mono (wp_reserve hw r hO) id ?_
  rintro v1 h1 ⟨r1, f1, hcap⟩
  have hl1 := r1.1
  by_cases hn : n > v1.len
  · rw [if_pos hn, wp_bind]
    obtain ⟨ra, rb⟩ := r1
    cases hd : v1.data with
    | none => simp only [hd] at rb; omega
    | some id =>
      simp only [hd] at rb
      obtain ⟨hid, hc0, tail, hb, ht, htr⟩ := rb
      have hb' : h1.blk id = some (l.map some ++ tail.take (n - l.length) ++ tail.drop (n - l.length)) := by
        rw [hb, List.append_assoc, List.take_append_drop]
      have hmid : n - v1.len = (tail.take (n - l.length)).length := by simp; omega
      have hpre : v1.len = (l.map some).length := by simp [ra]
      rw [hmid]
      rw [hpre]
      refine loop_construct (T := T) _ _ _ h1 hb' ?_ ?_
      · rcases htr with e | e
        · exact Or.inl e
        · exact Or.inr fun c hc => e c (List.mem_of_mem_take hc)
      · rw [wp_pure]
        rw [hd] at f1
        refine ⟨?_, f1.trans (Frame.put _ _ _) hw r.lt, hcap⟩
        have htake : l.take n = l := List.take_of_length_le (by omega)
        have hk : (tail.take (n - l.length)).length = n - l.length := by simp; omega
        rw [hk]
        simp only [Rep, htake, List.length_append, List.length_replicate]
        refine ⟨by omega, hid, hc0, tail.drop (n - l.length), ?_, ?_, ?_⟩
        · simp
        · simp; omega
        · rcases htr with e | e
          · exact Or.inl e
          · exact Or.inr fun c hc => e c (List.mem_of_mem_drop hc)
  · rw [if_neg hn]
    have hz : n - l.length = 0 := by omega
    simp only [hz, List.replicate_zero, List.append_nil]
    by_cases ht : T.triv = true
    · simp only [ht, Bool.not_true, Bool.false_eq_true, if_false]
      rw [wp_bind, wp_pure, wp_pure]
      exact ⟨r1.truncate ht n (by omega), f1, hcap⟩
    · have htf : T.triv = false := by simpa using ht
      simp only [htf, Bool.not_false, if_true]
      rw [wp_bind]
      obtain ⟨ra, rb⟩ := r1
      cases hd : v1.data with
      | none =>
        simp only [hd] at rb
        obtain ⟨hc, rfl⟩ := rb
        have e1 : v1.len = 0 := by simpa using ra
        simp only [e1, Nat.zero_sub, forLoop, wp_pure]
        rw [hd] at f1
        exact ⟨by simp [Rep, hd, hc]; omega, f1, hcap⟩
      | some id =>
        simp only [hd] at rb
        obtain ⟨hid, hc0, tail, hb, hlt, htr⟩ := rb
        have hb' : h1.blk id = some ((l.take n).map some ++ (l.drop n).map some ++ tail) := by
          rw [hb, ← List.map_append, List.take_append_drop]
        have hmid : v1.len - n = (l.drop n).length := by simp; omega
        have hpre : n = ((l.take n).map some).length := by simp; omega
        have key := loop_destroy (O := O) (T := T) htf (l.drop n) _ tail h1 hb'
          (Q := fun a h' => wp O (pure { v1 with len := n }) h' (fun v' h' =>
            Rep T h' v' (l.take n) ∧ Frame h v.data h' v'.data ∧ v'.cap = max v.cap n)) ?_
        · rw [← hpre, ← hmid] at key
          simpa only [hd] using key
        rw [wp_pure]
        rw [hd] at f1
        refine ⟨?_, by simpa only [hd] using f1.trans (Frame.put _ _ _) hw r.lt, hcap⟩
        simp only [Rep, List.length_take, hd]
        refine ⟨by omega, hid, hc0, List.replicate (l.drop n).length none ++ tail, ?_, ?_, ?_⟩
        · simp
        · simp; omega
        · rcases htr with e | e
          · exact Or.inl e
          · right; intro c hc
            simp only [List.mem_append] at hc
            rcases hc with hc | hc
            · exact (List.mem_replicate.mp hc).2
            · exact e c hc

theorem wp_pushOwn {O : Prop} {T : Traits} {h : Heap α} {v : Vec} {l : List α} {i : Nat}
    (hw : h.WF) (r : Rep T h v l) (hi : i < l.length)
    (hO : v.len = v.cap → h.lim < max 8 (2 * v.cap) → O) :
    wp O (pushOwn T v i) h (fun v' h' => Rep T h' v' (l ++ [l[i]]) ∧ Frame h v.data h' v'.data ∧
      v'.cap ≤ max v.cap (max 8 (2 * v.len))) := by
  unfold pushOwn
  rw [wp_bind]
  refine wp_require _ _ _ (by simp [r.1, hi]) ?_
  rw [wp_bind]
  exact wp_read r hi (wp_push hw r hO)

/-- Element-wise copy loop of `clone`. -/
theorem loop_clone {O : Prop} {T : Traits} {s d : Nat} {Q : Unit → Heap α → Prop} (hsd : s ≠ d) :
    ∀ (mid : List α) (pre post pre' post' mid' : Buf α) (h : Heap α),
    h.blk s = some (pre ++ mid.map some ++ post) →
    h.blk d = some (pre' ++ mid' ++ post') → mid'.length = mid.length →
    (∀ c ∈ mid', c = none) → pre'.length = pre.length →
    Q () (h.put d (some (pre' ++ mid.map some ++ post'))) →
    wp O (forLoop (fun i => do
        let x ← readAt (some s) i
        construct T (some d) i x) pre.length mid.length) h Q := by
  intro mid
  induction mid with
  | nil =>
    intro pre post pre' post' mid' h hs hd hl _ _ hq
    have hm : mid' = [] := by simpa using hl
    have e2 : h.put d (some (pre' ++ post')) = h := by
      have := put_self h d; rw [hd] at this; simpa [hm] using this
    simpa [forLoop, wp_pure, e2] using hq
  | cons c mid ih =>
    intro pre post pre' post' mid' h hs hd hl hr hp hq
    cases mid' with
    | nil => simp at hl
    | cons c' mid' =>
    simp only [List.length_cons, forLoop]
    have hc' : c' = none := hr c' (by simp)
    subst hc'
    rw [wp_bind, wp_bind]
    refine wp_readAt (x := c) hs (by simp) ?_
    refine wp_construct hd (by simp; omega) (Or.inr (by rw [← hp]; simp)) ?_
    have e' : (pre' ++ none :: mid' ++ post').set pre.length (some c)
        = (pre' ++ [some c]) ++ mid' ++ post' := by
      rw [← hp]; simp
    rw [e']
    have := ih (pre ++ [some c]) post (pre' ++ [some c]) post' mid'
      (h.put d (some ((pre' ++ [some c]) ++ mid' ++ post'))) ?_ (by simp) (by simpa using hl)
      (fun x hx => hr x (by simp [hx])) (by simp [hp]) ?_
    · simpa using this
    · rw [put_blk_ne _ _ hsd, hs]; simp
    · rw [put_put]; simpa using hq

theorem wp_clone {O : Prop} {T : Traits} {h : Heap α} {v : Vec} {l : List α}
    (r : Rep T h v l) (hO : h.lim < v.cap → O) :
    wp O (clone T v) h (fun v' h' => Rep T h' v' l ∧ Frame h none h' v'.data ∧ v'.cap = v.cap) := by
  unfold clone
  rw [wp_bind]
  refine wp_mono (wp_withCapacity (T := T) hO) id ?_
  rintro w h1 ⟨rw1, fw, hcap⟩
  obtain ⟨ra, rb⟩ := r
  obtain ⟨rc, rd⟩ := rw1
  cases hd : v.data with
  | none =>
    simp only [hd] at rb
    obtain ⟨hc, rfl⟩ := rb
    have hl0 : v.len = 0 := by simpa using ra
    have hm : ∀ p, wp O (memcpy p 0 none 0 0) h1
        (fun (_ : Unit) h' => h' = h1) := fun p => wp_ok (b := ()) (h' := h1) (by simp [memcpy]) rfl
    have fin : wp O (pure { w with len := v.len }) h1
      (fun v' h' => Rep T h' v' ([] : List α) ∧ Frame h none h' v'.data ∧ v'.cap = v.cap) := by
      rw [wp_pure]
      refine ⟨⟨by simp [hl0], ?_⟩, fw, hcap⟩
      cases hwd : w.data with
      | none => simp only [hwd] at rd; exact ⟨rd.1, rfl⟩
      | some id => simp only [hwd] at rd; exact rd
    rw [wp_bind, hl0]
    split
    · refine wp_mono (hm _) id ?_
      rintro _ h' rfl; simpa [hl0] using fin
    · simp only [forLoop, wp_pure]; simpa [hl0, wp_pure] using fin
  | some id =>
    simp only [hd] at rb
    obtain ⟨hid, hc0, tail, hb, hlt, htr⟩ := rb
    cases hwd : w.data with
    | none => simp only [hwd] at rd; omega
    | some wid =>
      simp only [hwd] at rd fw
      obtain ⟨hwid, _, wt, hwb, hwl, hwr⟩ := rd
      have hfresh : h.next ≤ wid := by
        rcases fw.own with e | ⟨e, _⟩
        · simp at e
        · exact (e wid rfl).1
      have hne : id ≠ wid := by omega
      have hb1 : h1.blk id = some (l.map some ++ tail) := by
        rw [fw.other id (by simp) (by simp; omega), hb]
      simp only [List.map_nil, List.nil_append] at hwb
      have fin : ∀ (wt' : Buf α), l.length + wt'.length = w.cap →
          (T.triv = true ∨ ∀ c ∈ wt', c = none) →
          ∀ h2, h2 = h1.put wid (some (l.map some ++ wt')) →
          wp O (pure (⟨some wid, v.len, w.cap⟩ : Vec)) h2
          (fun v' h' => Rep T h' v' l ∧ Frame h none h' v'.data ∧ v'.cap = v.cap) := by
        intro wt' hwt hr h2 e
        rw [wp_pure]
        refine ⟨⟨ra, ?_⟩, ?_, hcap⟩
        · exact ⟨by simp [e, hwid], by simp only; omega, wt', by simp [e], hwt, hr⟩
        · rw [e]
          refine ⟨fw.next_le, fw.lim_eq, ?_, Or.inr ⟨?_, by simp⟩⟩
          · intro j h1 h2
            rw [put_blk_ne _ _ (fun e => h2 (by simp [e])), fw.other j h1 h2]
          · intro j hj; simp at hj; subst hj; exact ⟨hfresh, hwid⟩
      rw [wp_bind]
      by_cases ht : T.triv = true
      · simp only [ht, if_true, hwd]
        refine wp_memcpy hwb hb1 ?_ ?_ ?_ ?_
        · simp at hwl; omega
        · simp; omega
        · refine fin (wt.drop v.len) (by simp at hwl ⊢; omega) (Or.inl ht) _ ?_
          simp [ra, List.take_append]
        · intro h0
          have hl0 : l = [] := by rw [← List.length_eq_zero_iff]; omega
          refine fin wt (by simp [hl0] at hwl ⊢; omega) (Or.inl ht) _ ?_
          have : some (List.map some l ++ wt) = h1.blk wid := by rw [hwb, hl0]; simp
          rw [this, put_self]
      · have htf : T.triv = false := by simpa using ht
        simp only [htf, Bool.false_eq_true, if_false, hwd]
        have hwn : ∀ c ∈ wt, c = none := by
          rcases hwr with e | e
          · exact absurd e ht
          · exact e
        have hwb' : h1.blk wid = some ([] ++ wt.take l.length ++ wt.drop l.length) := by
          rw [hwb]; simp
        have hb1' : h1.blk id = some ([] ++ l.map some ++ tail) := by simp [hb1]
        rw [ra]
        refine loop_clone (T := T) hne l [] tail [] (wt.drop l.length) (wt.take l.length) h1 hb1'
          hwb' (by simp at hwl ⊢; omega) (fun c hc => hwn c (List.mem_of_mem_take hc)) rfl ?_
        have := fin (wt.drop l.length) (by simp at hwl ⊢; omega)
          (Or.inr fun c hc => hwn c (List.mem_of_mem_drop hc)) _ rfl
        rw [ra] at this
        simpa using this

theorem wp_make {O : Prop} {T : Traits} {n : Nat} {d : α} {h : Heap α} (hw : h.WF) (hO : h.lim < n → O) :
    wp O (make T d n) h (fun v h' => Rep T h' v (List.replicate n d) ∧ Frame h none h' v.data ∧ v.cap = n) := by
  have e : make T d n h = ((withCapacity n : M α Vec) >>= fun v =>
      forLoop (fun i => construct T v.data i d) 0 n >>= fun _ => pure { v with len := n, cap := n }) h := by
    simp only [make, withCapacity, bind_assoc, pure_bind]
  have key : wp O ((withCapacity n : M α Vec) >>= fun v =>
      forLoop (fun i => construct T v.data i d) 0 n >>= fun _ => pure { v with len := n, cap := n }) h
      (fun v h' => Rep T h' v (List.replicate n d) ∧ Frame h none h' v.data ∧ v.cap = n) := by
    rw [wp_bind]
    refine wp_mono (wp_withCapacity (T := T) hO) id ?_
    rintro v h1 ⟨⟨r1, r2⟩, fr, hc⟩
    rw [wp_bind]
    cases hd : v.data with
    | none =>
      simp only [hd] at r2
      have hn : n = 0 := by rw [← hc]; exact r2.1
      subst hn
      simp only [forLoop]
      rw [wp_pure, wp_pure]
      rw [hd] at fr
      exact ⟨by simp [Rep, hd], by simpa only [hd] using fr, rfl⟩
    | some id =>
      simp only [hd] at r2
      obtain ⟨hid, hc0, tail, hb, hl, ht⟩ := r2
      have hn : n = tail.length := by simp at hl; omega
      have k := loop_construct (O := O) (T := T) (d := d) tail [] [] h1 (by simpa using hb) ht
        (Q := fun _ h' => wp O (pure { v with len := n, cap := n }) h' (fun v h' => Rep T h' v (List.replicate n d) ∧
          Frame h none h' v.data ∧ v.cap = n)) ?_
      · rw [← hn] at k
        simpa only [hd, List.length_nil] using k
      · rw [wp_pure, ← hn]
        rw [hd] at fr
        refine ⟨?_, by simpa only [hd] using fr.trans (Frame.put _ _ _) hw (by simp), rfl⟩
        simp only [Rep, List.length_replicate, true_and, hd]
        exact ⟨hid, by omega, [], by simp, by simp, .inr (by simp)⟩
  unfold wp at key ⊢
  rw [e]
  exact key

theorem wp_pushAll {O : Prop} {T : Traits} : ∀ (xs : List α) {h : Heap α} {v : Vec} {l : List α},
    h.WF → Rep T h v l → (h.lim < 2 * (l.length + xs.length) + 8 → O) →
    wp O (pushAll T v xs) h (fun v' h' => Rep T h' v' (l ++ xs) ∧ Frame h v.data h' v'.data ∧
      v'.cap ≤ max v.cap (2 * (l.length + xs.length) + 8))
  | [], h, v, l, hw, r, hO => by
    simp only [pushAll]
    rw [wp_pure]
    exact ⟨by simpa using r, Frame.refl _ _, by omega⟩
  | x :: xs, h, v, l, hw, r, hO => by
    simp only [pushAll]
    simp only [List.length_cons] at hO ⊢
    rw [wp_bind]
    have hl := r.1
    refine wp_mono (wp_push hw r fun h1 h2 => hO (by omega)) id ?_
    rintro v1 h1 ⟨r1, f1, c1⟩
    refine wp_mono (wp_pushAll xs (f1.wf hw r.lt) r1 fun h2 => hO (by
      rw [f1.lim_eq] at h2; simp only [List.length_append, List.length_singleton] at h2; omega)) id ?_
    rintro v2 h2 ⟨r2, f2, c2⟩
    simp only [List.length_append, List.length_singleton] at c2
    exact ⟨by simpa using r2, f1.trans f2 hw r.lt, by omega⟩

theorem wp_ofElems {O : Prop} {T : Traits} {h : Heap α} (xs : List α) (hw : h.WF) (hO : h.lim < 2 * xs.length + 8 → O) :
    wp O (ofElems T xs) h (fun v' h' => Rep T h' v' xs ∧ Frame h none h' v'.data ∧ v'.cap ≤ 2 * xs.length + 8) := by
  unfold ofElems
  rw [wp_bind]
  refine wp_mono (wp_reserve hw (Rep.nil T h) fun h1 => hO (by omega)) id ?_
  rintro v1 h1 ⟨r1, f1, c1⟩
  refine wp_mono (wp_pushAll xs (f1.wf hw (Rep.nil T h).lt) r1 fun h2 => hO (by
    rw [f1.lim_eq] at h2; simp only [List.length_nil] at h2; omega)) id ?_
  rintro v2 h2 ⟨r2, f2, c2⟩
  refine ⟨by simpa using r2, f1.trans f2 hw (Rep.nil T h).lt, ?_⟩
  simp only [nil, List.length_nil] at c1 c2
  omega

end Vec
end Rpp
