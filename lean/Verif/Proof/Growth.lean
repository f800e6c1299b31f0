import Verif.Spec.Growth
import Verif.Model.Growth
import Verif.Proof.Vec

namespace Rpp.Growth
open Rpp.Spec

theorem bind_ok {α β γ : Type} {x : M α β} {f : β → M α γ} {h : Heap α} {r : γ × Heap α} (e : (x >>= f) h = .ok r) :
    ∃ a h1, x h = .ok (a, h1) ∧ f a h1 = .ok r := by
  simp only [bind, StateT.bind, Except.bind] at e
  cases hx : x h with
  | error y => rw [hx] at e; cases e
  | ok p => rw [hx] at e; exact ⟨p.1, p.2, rfl, e⟩

theorem pure_ok {α β : Type} {b : β} {h : Heap α} {r : β × Heap α} (e : (pure b : M α β) h = .ok r) : r = (b, h) := by
  cases e; rfl

theorem ebind_ok {β γ : Type} {x : Res β} {f : β → Res γ} {r : γ} (e : (x >>= f) = .ok r) : ∃ a, x = .ok a ∧ f a = .ok r := by
  cases hx : x with
  | error y => rw [hx] at e; cases e
  | ok p => rw [hx] at e; exact ⟨p, rfl, e⟩

/-- How a container of lengths and capacities grows. -/
structure Rule {σ ε : Type} (step : σ → ε → Res σ) (isAdd : ε → Bool) (len cap : σ → Nat) (thr : Nat → Nat) (c0 : Nat)
    (I : σ → Prop) : Prop where
  add : ∀ {s e s'}, I s → step s e = .ok s' → isAdd e = true → I s' ∧ len s' = len s + 1 ∧
    cap s' = if len s = thr (cap s) then (if cap s ≠ 0 then 2 * cap s else c0) else cap s
  sub : ∀ {s e s'}, I s → step s e = .ok s' → isAdd e = false → I s' ∧ len s' ≤ len s ∧ cap s' = cap s

/-- A state with `a` additions, `k` allocations and `m` moves behind it. -/
def Good (thr : Nat → Nat) (c0 len cap a k m : Nat) : Prop :=
  len ≤ a ∧ ((cap = 0 ∧ k = 0 ∧ m = 0) ∨
    ∃ j, k = j + 1 ∧ cap = c0 * 2 ^ j ∧ m + thr c0 ≤ thr c0 * 2 ^ j ∧ (1 ≤ j → thr c0 * 2 ^ j < 2 * a))

theorem moved_good {σ ε : Type} {step : σ → ε → Res σ} {isAdd : ε → Bool} {len cap : σ → Nat} {thr : Nat → Nat} {c0 : Nat}
    {I : σ → Prop} (R : Rule step isAdd len cap thr c0 I) (hc : 0 < c0) (ht0 : thr 0 = 0) (ht : ∀ j, thr (c0 * 2 ^ j) = thr c0 * 2 ^ j) :
    ∀ (es : List ε) {s : σ} {tr : List σ} {a k m : Nat}, I s → Good thr c0 (len s) (cap s) a k m → trace step s es = .ok tr →
      ∃ t, tr.head? = some s ∧ Good thr c0 (len t) (cap t) (a + es.countP isAdd) (k + allocs cap tr) (m + moved len cap tr) := by
  intro es
  induction es with
  | nil =>
    intro s tr a k m _ hg h
    cases h
    exact ⟨s, rfl, by simpa [allocs, moved] using hg⟩
  | cons e es ih =>
    intro s tr a k m hI hg h
    unfold trace at h
    cases h1 : step s e with
    | error x => rw [h1] at h; cases h
    | ok s' =>
      rw [h1] at h
      dsimp only at h
      cases h2 : trace step s' es with
      | error x => rw [h2] at h; cases h
      | ok l =>
        rw [h2] at h
        cases h
        have hpos : ∀ j, c0 * 2 ^ j ≠ 0 := fun j => by have : 0 < c0 * 2 ^ j := Nat.mul_pos hc (Nat.two_pow_pos j); omega
        have key : I s' ∧ Good thr c0 (len s') (cap s') (a + if isAdd e then 1 else 0)
            (k + if cap s = cap s' then 0 else 1) (m + if cap s = cap s' then 0 else len s) := by
          cases ha : isAdd e with
          | false =>
            obtain ⟨i, h3, h4⟩ := R.sub hI h1 ha
            refine ⟨i, ?_⟩
            rw [h4]
            simp only [if_true, Bool.false_eq_true, if_false, Nat.add_zero]
            exact ⟨by have := hg.1; omega, hg.2⟩
          | true =>
            obtain ⟨i, h3, h4⟩ := R.add hI h1 ha
            refine ⟨i, ?_⟩
            rw [if_pos rfl]
            have hl := hg.1
            refine ⟨by omega, ?_⟩
            by_cases hf : len s = thr (cap s)
            · rw [if_pos hf] at h4
              rcases hg.2 with ⟨c, hk, hm⟩ | ⟨j, hk, c, hm, hj⟩
              · rw [c] at h4
                rw [if_neg (by simp)] at h4
                rw [c] at hf
                right
                refine ⟨0, ?_, by rw [h4]; simp, ?_, by omega⟩
                · rw [c, h4, if_neg (by omega)]; omega
                · rw [c, h4, if_neg (by omega), hm, hf, ht0]; simp
              · rw [if_pos (by rw [c]; exact hpos j)] at h4
                have hne : cap s ≠ cap s' := by rw [h4]; have := hpos j; omega
                rw [if_neg hne, if_neg hne]
                rw [c, ht] at hf
                right
                refine ⟨j + 1, by omega, by rw [h4, c, Nat.pow_succ]; ac_rfl, ?_, fun _ => ?_⟩
                · rw [Nat.pow_succ, ← Nat.mul_assoc]; omega
                · rw [Nat.pow_succ, ← Nat.mul_assoc]; omega
            · rw [if_neg hf] at h4
              rw [h4]
              simp only [if_true, Nat.add_zero]
              rcases hg.2 with hg2 | ⟨j, hk, c, hm, hj⟩
              · exact .inl hg2
              · exact .inr ⟨j, hk, c, hm, fun h => by have := hj h; omega⟩
        obtain ⟨t, ht1, ht2⟩ := ih key.1 key.2 h2
        refine ⟨t, rfl, ?_⟩
        cases l with
        | nil => cases ht1
        | cons b r =>
          cases ht1
          simp only [allocs, moved, List.countP_cons]
          rw [show a + (List.countP isAdd es + if isAdd e = true then 1 else 0) = a + (if isAdd e then 1 else 0) + List.countP isAdd es by omega,
            ← Nat.add_assoc, ← Nat.add_assoc]
          exact ht2

/-- The bounds. -/
theorem bounds {σ ε : Type} {step : σ → ε → Res σ} {isAdd : ε → Bool} {len cap : σ → Nat} {thr : Nat → Nat} {c0 : Nat}
    {I : σ → Prop} (R : Rule step isAdd len cap thr c0 I) (hc : 0 < c0) (ht0 : thr 0 = 0) (ht : ∀ j, thr (c0 * 2 ^ j) = thr c0 * 2 ^ j)
    {es : List ε} {s : σ} {tr : List σ} (hI : I s) (hl : len s = 0) (hcap : cap s = 0) (h : trace step s es = .ok tr) :
    moved len cap tr ≤ 2 * es.countP isAdd ∧ (2 ≤ allocs cap tr → thr c0 * 2 ^ (allocs cap tr - 1) < 2 * es.countP isAdd) := by
  have hg : Good thr c0 (len s) (cap s) 0 0 0 := ⟨by omega, .inl ⟨hcap, rfl, rfl⟩⟩
  obtain ⟨t, _, h1, h2⟩ := moved_good R hc ht0 ht es hI hg h
  simp only [Nat.zero_add] at h1 h2
  rcases h2 with ⟨_, hk, hm⟩ | ⟨j, hk, c, hm, hj⟩
  · exact ⟨by omega, fun h => by omega⟩
  · refine ⟨?_, fun h => ?_⟩
    · cases j with
      | zero => simp at hm; omega
      | succ j => have := hj (by omega); omega
    · rw [hk, Nat.add_sub_cancel]
      exact hj (by omega)

/-- Peel off the parts of a piece of code that has run. -/
theorem reserve_ok {α : Type} {T : Traits} {v v' : Vec} {n : Nat} {h h' : Heap α} (e : Vec.reserve T v n h = .ok (v', h')) :
    v'.len = v.len ∧ v'.cap = max v.cap n := by
  unfold Vec.reserve at e
  by_cases hn : n ≤ v.cap
  · rw [if_pos hn] at e
    cases e
    exact ⟨rfl, by omega⟩
  · rw [if_neg hn] at e
    obtain ⟨_, _, _, e⟩ := bind_ok e
    obtain ⟨_, _, _, e⟩ := bind_ok e
    obtain ⟨_, _, _, e⟩ := bind_ok e
    cases e
    exact ⟨rfl, by dsimp only; omega⟩

theorem heap_reserve_ok {α : Type} {T : Traits} {v v' : Vec} {n : Nat} {h h' : Heap α} (e : PHeap.reserve T v n h = .ok (v', h')) :
    v'.len = v.len ∧ v'.cap = max v.cap n := by
  unfold PHeap.reserve at e
  by_cases hn : n ≤ v.cap
  · rw [if_pos hn] at e
    cases e
    exact ⟨rfl, by omega⟩
  · rw [if_neg hn] at e
    obtain ⟨_, _, _, e⟩ := bind_ok e
    obtain ⟨_, _, _, e⟩ := bind_ok e
    obtain ⟨_, _, _, e⟩ := bind_ok e
    cases e
    exact ⟨rfl, by dsimp only; omega⟩

theorem queue_reserve_ok {α : Type} {T : Traits} {v v' : Queue} {n : Nat} {h h' : Heap α} (e : Queue.reserve T v n h = .ok (v', h')) :
    v'.len = v.len ∧ v'.cap = max v.cap n := by
  unfold Queue.reserve at e
  by_cases hn : n ≤ v.cap
  · rw [if_pos hn] at e
    cases e
    exact ⟨rfl, by omega⟩
  · rw [if_neg hn] at e
    obtain ⟨_, _, _, e⟩ := bind_ok e
    obtain ⟨_, _, _, e⟩ := bind_ok e
    obtain ⟨_, _, _, e⟩ := bind_ok e
    cases e
    exact ⟨rfl, by dsimp only; omega⟩

theorem twice_or {c : Nat} : max c (if c ≠ 0 then 2 * c else 8) = if c ≠ 0 then 2 * c else 8 := by
  split <;> omega

theorem vec_rule {α : Type} (T : Traits) : Rule (vec (α := α) T) Op.adds
    (fun s => s.1.len) (fun s => s.1.cap) id 8 (fun _ => True) where
  add {s e s'} _ h ha := by
    obtain ⟨v, h0⟩ := s
    obtain ⟨v', h'⟩ := s'
    cases e with
    | push x =>
      refine ⟨trivial, ?_⟩
      change Vec.push T v x h0 = .ok (v', h') at h
      unfold Vec.push at h
      obtain ⟨v1, h1, e1, h⟩ := bind_ok h
      obtain ⟨_, _, _, h⟩ := bind_ok h
      obtain ⟨_, _, _, h⟩ := bind_ok h
      cases h
      dsimp only [id]
      by_cases hf : v.len = v.cap
      · rw [if_pos hf] at e1 ⊢
        obtain ⟨h2, h3⟩ := reserve_ok e1
        exact ⟨by rw [h2], by rw [h3, twice_or]⟩
      · rw [if_neg hf] at e1 ⊢
        cases e1
        exact ⟨rfl, rfl⟩
    | _ => cases ha
  sub {s e s'} _ h ha := by
    obtain ⟨v, h0⟩ := s
    obtain ⟨v', h'⟩ := s'
    refine ⟨trivial, ?_⟩
    cases e with
    | push x => cases ha
    | pop =>
      change Vec.pop T v h0 = .ok (v', h') at h
      unfold Vec.pop at h
      obtain ⟨_, _, _, h⟩ := bind_ok h
      obtain ⟨_, _, _, h⟩ := bind_ok h
      cases h
      exact ⟨Nat.sub_le _ _, rfl⟩
    | clear =>
      change Vec.clear T v h0 = .ok (v', h') at h
      unfold Vec.clear at h
      obtain ⟨_, _, _, h⟩ := bind_ok h
      cases h
      exact ⟨Nat.zero_le _, rfl⟩

theorem queue_rule {α : Type} (T : Traits) : Rule (queue (α := α) T) Op.adds
    (fun s => s.1.len) (fun s => s.1.cap) id 8 (fun _ => True) where
  add {s e s'} _ h ha := by
    obtain ⟨v, h0⟩ := s
    obtain ⟨v', h'⟩ := s'
    cases e with
    | push x =>
      refine ⟨trivial, ?_⟩
      change Queue.push T v x h0 = .ok (v', h') at h
      unfold Queue.push at h
      obtain ⟨v1, h1, e1, h⟩ := bind_ok h
      obtain ⟨_, _, _, h⟩ := bind_ok h
      cases h
      dsimp only [id]
      by_cases hf : v.len = v.cap
      · rw [if_pos hf] at e1 ⊢
        obtain ⟨h2, h3⟩ := queue_reserve_ok e1
        exact ⟨by rw [h2], by rw [h3, twice_or]⟩
      · rw [if_neg hf] at e1 ⊢
        cases e1
        exact ⟨rfl, rfl⟩
    | _ => cases ha
  sub {s e s'} _ h ha := by
    obtain ⟨v, h0⟩ := s
    obtain ⟨v', h'⟩ := s'
    refine ⟨trivial, ?_⟩
    cases e with
    | push x => cases ha
    | pop =>
      change Queue.pop T v h0 = .ok (v', h') at h
      unfold Queue.pop at h
      obtain ⟨_, _, _, h⟩ := bind_ok h
      obtain ⟨_, _, _, h⟩ := bind_ok h
      cases h
      exact ⟨Nat.sub_le _ _, rfl⟩
    | clear =>
      change Queue.clear T v h0 = .ok (v', h') at h
      unfold Queue.clear at h
      obtain ⟨_, _, _, h⟩ := bind_ok h
      cases h
      exact ⟨Nat.zero_le _, rfl⟩

theorem heap_rule {α : Type} (T : Traits) (lt : α → α → Bool) : Rule (heap T lt) HeapOp.adds
    (fun s => s.1.len) (fun s => s.1.cap) id 8 (fun _ => True) where
  add {s e s'} _ h ha := by
    obtain ⟨v, h0⟩ := s
    obtain ⟨v', h'⟩ := s'
    cases e with
    | push x =>
      refine ⟨trivial, ?_⟩
      change PHeap.push T lt v x h0 = .ok (v', h') at h
      unfold PHeap.push at h
      obtain ⟨v1, h1, e1, h⟩ := bind_ok h
      obtain ⟨_, _, _, h⟩ := bind_ok h
      obtain ⟨_, _, _, h⟩ := bind_ok h
      cases h
      dsimp only [id]
      by_cases hf : v.len = v.cap
      · rw [if_pos hf] at e1 ⊢
        obtain ⟨h2, h3⟩ := heap_reserve_ok e1
        exact ⟨by rw [h2], by rw [h3, twice_or]⟩
      · rw [if_neg hf] at e1 ⊢
        cases e1
        exact ⟨rfl, rfl⟩
    | _ => cases ha
  sub {s e s'} _ h ha := by
    obtain ⟨v, h0⟩ := s
    obtain ⟨v', h'⟩ := s'
    refine ⟨trivial, ?_⟩
    cases e with
    | push x => cases ha
    | pop =>
      change PHeap.pop T lt v h0 = .ok (v', h') at h
      unfold PHeap.pop at h
      obtain ⟨_, _, _, h⟩ := bind_ok h
      obtain ⟨_, _, _, h⟩ := bind_ok h
      obtain ⟨_, _, _, h⟩ := bind_ok h
      cases h
      exact ⟨Nat.sub_le _ _, rfl⟩

theorem map_rule {K V : Type} [DecidableEq K] (H : K → Nat) (lim : Nat) :
    Rule (map (V := V) H lim) MOp.adds
    (fun m => m.len) (fun m => m.cap) (fun c => c / 4 * 3) 32 (fun m => m.usable = m.cap / 4 * 3) where
  add {s e s'} hI h ha := by
    cases e with
    | insert k x =>
      have h : (Map.insert H lim s k x).map (·.1) = .ok s' := h
      cases hm : Map.insert H lim s k x with
      | error y => rw [hm] at h; cases h
      | ok p =>
        rw [hm] at h
        cases h
        unfold Map.insert at hm
        obtain ⟨m1, e1, hm⟩ := ebind_ok hm
        obtain ⟨_, _, hm⟩ := ebind_ok hm
        cases hm
        dsimp only
        by_cases hf : s.isFull = true
        · rw [if_pos hf] at e1
          have hf' : s.len = s.usable := by simpa [Map.isFull] using hf
          rw [if_pos (by rw [hf', hI])]
          unfold Map.grow Map.reserve at e1
          rw [if_neg (by split <;> omega)] at e1
          obtain ⟨_, _, e1⟩ := ebind_ok e1
          obtain ⟨_, _, e1⟩ := ebind_ok e1
          cases e1
          exact ⟨rfl, rfl, rfl⟩
        · rw [if_neg hf] at e1
          have hf' : ¬ s.len = s.usable := by simpa [Map.isFull] using hf
          rw [if_neg (by rw [← hI]; exact hf')]
          cases e1
          exact ⟨hI, rfl, rfl⟩
    | _ => cases ha
  sub {s e s'} hI h ha := by
    cases e with
    | insert k x => cases ha
    | clear =>
      cases h
      exact ⟨hI, Nat.zero_le _, rfl⟩
    | erase k =>
      have h : (Map.try_erase H s k).map (·.1) = .ok s' := h
      cases hm : Map.try_erase H s k with
      | error y => rw [hm] at h; cases h
      | ok p =>
        rw [hm] at h
        cases h
        unfold Map.try_erase at hm
        by_cases he : s.isEmpty = true
        · rw [if_pos he] at hm
          cases hm
          exact ⟨hI, Nat.le_refl _, rfl⟩
        · rw [if_neg he] at hm
          obtain ⟨_, _, hm⟩ := ebind_ok hm
          obtain ⟨o, _, hm⟩ := ebind_ok hm
          cases o with
          | none => cases hm; exact ⟨hI, Nat.le_refl _, rfl⟩
          | some d => cases hm; exact ⟨hI, Nat.sub_le _ _, rfl⟩

/-- Extending by one element at a time. -/
theorem extend_trace {α : Type} (T : Traits) (d : α) : ∀ (n : Nat) {v : Vec} {h : Heap α} {l : List α}, h.WF → Vec.Rep T h v l →
    v.len = v.cap → v.len + n ≤ h.lim → ∃ tr, trace (vecExtend T d) (v, h) (List.replicate n 1) = .ok tr ∧
      tr.head? = some (v, h) ∧ allocs (fun s => s.1.cap) tr = n ∧
      2 * moved (fun s => s.1.len) (fun s => s.1.cap) tr + n = n * n + 2 * (v.len * n) := by
  intro n
  induction n with
  | zero => intro v h l _ _ _ _; exact ⟨[(v, h)], rfl, rfl, rfl, by simp [moved]⟩
  | succ n ih =>
    intro v h l hw r hc hlim
    have w := Vec.wp_resize (O := False) (d := d) (n := v.len + 1) hw r (by omega)
    unfold wp at w
    cases hr : Vec.resize T d v (v.len + 1) h with
    | error e => rw [hr] at w; exact w.2.elim
    | ok p =>
      obtain ⟨v', h'⟩ := p
      rw [hr] at w
      obtain ⟨r', f, hcap⟩ := w
      have hlen : v'.len = v.len + 1 := by
        rw [r'.1, List.length_append, List.length_take, List.length_replicate, ← r.1]; omega
      obtain ⟨tr, h1, h2, h3, h4⟩ := ih (f.wf hw r.lt) r' (by omega) (by rw [f.lim_eq]; omega)
      refine ⟨(v, h) :: tr, ?_, rfl, ?_⟩
      · rw [List.replicate_succ]
        unfold trace
        have : vecExtend T d (v, h) 1 = .ok (v', h') := hr
        rw [this]
        dsimp only
        rw [h1]
      · cases tr with
        | nil => cases h2
        | cons b tr =>
          cases h2
          simp only [allocs, moved] at h3 h4 ⊢
          rw [if_neg (by omega), if_neg (by omega), h3]
          refine ⟨by omega, ?_⟩
          rw [hlen] at h4
          grind

end Rpp.Growth
