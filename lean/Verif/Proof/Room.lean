import Verif.Spec.Room

/-!
# Proofs about the bytes containers ask for
-/

namespace Rpp.Room

open Spec

/-- The container is as it should be. -/
structure Good (k : Kind) (lim sz : Nat) (c : C) : Prop where
  data : c.data = if c.cap = 0 then none else some (c.cap * sz)
  room : c.cap * sz ≤ lim
  len : c.len ≤ c.cap
  last : k = .queue → (c.cap = 0 ∧ c.last = 0) ∨ c.last < c.cap

theorem good_empty (k : Kind) (lim sz : Nat) : Good k lim sz C.empty :=
  ⟨by simp [C.empty], by simp [C.empty], by simp [C.empty], fun _ => .inl ⟨rfl, rfl⟩⟩

theorem touch_ok {d : Option Nat} {sz i j n : Nat} (hd : d = if n = 0 then none else some (n * sz)) (hj : j ≤ n ∨ j ≤ i) :
    touch d sz i j = .ok () := by
  unfold touch
  by_cases h : j ≤ i
  · rw [if_pos h]
  · have hj : j ≤ n := by omega
    have hn : n ≠ 0 := by omega
    rw [if_neg h, hd, if_neg hn]
    simp only
    rw [if_pos (Nat.mul_le_mul_right sz hj)]

theorem touchAll_ok {k : Kind} {lim sz : Nat} {c : C} (h : Good k lim sz c) : touchAll k sz c = .ok () := by
  have hl := h.len
  unfold touchAll
  by_cases hk : k = .queue
  · rw [if_pos hk]
    have hq := h.last hk
    by_cases hc : c.len ≤ c.last
    · rw [if_pos hc, touch_ok h.data (by omega)]
    · rw [if_neg hc, touch_ok h.data (by omega)]
      show touch c.data sz 0 c.last = _
      rw [touch_ok h.data (by omega)]
  · rw [if_neg hk, touch_ok h.data (by omega)]

theorem wmul_small {a b : Nat} (h : a * b < 2 ^ 64) : wmul a b = a * b := Nat.mod_eq_of_lt h

theorem alloc_cases {lim sz n : Nat} (hs : 0 < sz) (hn : n * sz < 2 ^ 64) :
    (alloc lim sz n = .error .oom ∧ lim < n * sz) ∨
    (alloc lim sz n = .ok (if n = 0 then none else some (n * sz)) ∧ n * sz ≤ lim) := by
  unfold alloc
  rw [wmul_small hn]
  by_cases h0 : n = 0
  · right
    simp [h0]
  · have : n * sz ≠ 0 := by
      intro hx
      rcases Nat.mul_eq_zero.mp hx with hx | hx <;> omega
    rw [if_neg this]
    by_cases hl : lim < n * sz
    · left
      rw [if_pos hl]
      exact ⟨rfl, hl⟩
    · right
      rw [if_neg hl, if_neg h0]
      exact ⟨rfl, by omega⟩

/-- What `reserve` does. -/
theorem reserve_good {k : Kind} {lim sz : Nat} {c : C} (hs : 0 < sz) (h : Good k lim sz c) {n : Nat} (hn : n * sz < 2 ^ 64) :
    (reserve k lim sz c n = .error .oom ∧ lim < n * sz) ∨
    (∃ c', reserve k lim sz c n = .ok c' ∧ Good k lim sz c' ∧ c'.len = c.len ∧ c'.cap = max c.cap n) := by
  have hl := h.len
  unfold reserve
  by_cases hc : n ≤ c.cap
  · right
    rw [if_pos hc]
    exact ⟨c, rfl, h, rfl, by omega⟩
  · rw [if_neg hc]
    have hgood : n * sz ≤ lim → Good k lim sz ⟨if n = 0 then none else some (n * sz), c.len, n, c.len⟩ := fun hle =>
      ⟨rfl, hle, by dsimp only; omega, fun _ => by dsimp only; omega⟩
    rcases alloc_cases (lim := lim) hs hn with ⟨ha, hlt⟩ | ⟨ha, hle⟩
    · left
      rw [ha]
      exact ⟨rfl, hlt⟩
    · right
      rw [ha]
      refine ⟨_, ?_, hgood hle, rfl, by dsimp only; omega⟩
      show (if _ then _ else _) = _
      by_cases hk : k = .vec ∧ (c.data = none ∨ (if n = 0 then none else some (n * sz)) = none)
      · rw [if_pos hk]
      · rw [if_neg hk, touchAll_ok h]
        show (touch _ sz 0 c.len >>= _) = _
        rw [touch_ok (n := n) rfl (by omega)]
        rfl

/-- What `push` does. -/
theorem push_good {k : Kind} {lim sz : Nat} {c : C} (hs : 0 < sz) (hs8 : sz < 2 ^ 61) (hlim : lim < 2 ^ 63) (h : Good k lim sz c) :
    (push k lim sz c = .error .oom ∧ c.len = c.cap ∧ lim < (if c.cap = 0 then 8 else 2 * c.cap) * sz) ∨
    (∃ c', push k lim sz c = .ok c' ∧ Good k lim sz c' ∧ c'.len = c.len + 1 ∧
      (c.len < c.cap → c'.cap = c.cap) ∧ (c.len = c.cap → c'.cap = if c.cap = 0 then 8 else 2 * c.cap)) := by
  have hl := h.len
  have hroom := h.room
  have hcap : c.cap ≤ c.cap * sz := Nat.le_mul_of_pos_right _ hs
  have hfin : ∀ c1 : C, Good k lim sz c1 → c1.len = c.len → c1.len < c1.cap → ∃ c', (do
      if k = .vec ∧ ¬ c1.len < c1.cap then .error .die
      let i := if k = .queue then c1.last else c1.len
      touch c1.data sz i (i + 1)
      .ok { c1 with len := wadd c1.len 1, last := if c1.last = wsub c1.cap 1 then 0 else wadd c1.last 1 } : Res C) = .ok c' ∧
      Good k lim sz c' ∧ c'.len = c.len + 1 ∧ c'.cap = c1.cap := by
    intro c1 hg hlen hlt
    have hcap1 : c1.cap ≤ c1.cap * sz := Nat.le_mul_of_pos_right _ hs
    have hr1 := hg.room
    have hw : wadd c1.len 1 = c1.len + 1 := Nat.mod_eq_of_lt (by omega)
    have hw2 : wsub c1.cap 1 = c1.cap - 1 := by
      unfold wsub
      omega
    refine ⟨{ c1 with len := wadd c1.len 1, last := if c1.last = wsub c1.cap 1 then 0 else wadd c1.last 1 }, ?_,
      ⟨hg.data, hg.room, by dsimp only; omega, fun hk => ?_⟩, by dsimp only; omega, rfl⟩
    · have hx : ¬ (k = .vec ∧ ¬ c1.len < c1.cap) := fun hx => hx.2 hlt
      rw [if_neg hx]
      show (touch _ _ _ _ >>= _) = _
      have hi : (if k = .queue then c1.last else c1.len) + 1 ≤ c1.cap := by
        by_cases hk : k = .queue
        · rw [if_pos hk]
          have := hg.last hk
          omega
        · rw [if_neg hk]
          omega
      rw [touch_ok hg.data (.inl hi)]
      rfl
    · dsimp only
      have := hg.last hk
      right
      by_cases hla : c1.last = wsub c1.cap 1
      · rw [if_pos hla]
        omega
      · rw [if_neg hla]
        unfold wadd
        omega
  unfold push
  by_cases hfull : c.len = c.cap
  · rw [if_pos hfull]
    unfold grow
    have hnew : (if c.cap = 0 then 8 else wmul 2 c.cap) = if c.cap = 0 then 8 else 2 * c.cap := by
      by_cases h0 : c.cap = 0
      · rw [if_pos h0, if_pos h0]
      · rw [if_neg h0, if_neg h0]
        exact wmul_small (by omega)
    rw [hnew]
    generalize hm : (if c.cap = 0 then 8 else 2 * c.cap) = m
    have hmc : c.cap < m ∧ m * sz < 2 ^ 64 := by
      by_cases h0 : c.cap = 0
      · rw [if_pos h0] at hm
        rw [← hm]
        omega
      · rw [if_neg h0] at hm
        refine ⟨by omega, ?_⟩
        rw [← hm, Nat.mul_assoc]
        omega
    rcases reserve_good hs h hmc.2 with ⟨hr, hlt⟩ | ⟨c1, hr, hg, hlen, hc1⟩
    · left
      rw [hr]
      exact ⟨rfl, hfull, hlt⟩
    · right
      rw [hr]
      obtain ⟨c', he, hg', hlen', hc⟩ := hfin c1 hg hlen (by omega)
      refine ⟨c', he, hg', hlen', fun hx => by omega, fun _ => by omega⟩
  · rw [if_neg hfull]
    right
    obtain ⟨c', he, hg, hlen, hc⟩ := hfin c h rfl (by omega)
    exact ⟨c', he, hg, hlen, fun _ => hc, fun hx => absurd hx hfull⟩

/-- A step within the rules. -/
theorem step_good {k : Kind} {lim sz : Nat} {c : C} (hs : 0 < sz) (hs8 : sz < 2 ^ 61) (hlim : lim < 2 ^ 63) (h : Good k lim sz c) (o : Op)
    (hn : need c.len o * sz < 2 ^ 64) :
    step k lim sz c o = .error .oom ∨ (step k lim sz c o = .error .die ∧ lenStep k c.len o = none) ∨
    (∃ c', step k lim sz c o = .ok c' ∧ Good k lim sz c' ∧ lenStep k c.len o = some c'.len) := by
  have hl := h.len
  have hroom := h.room
  have hcap : c.cap ≤ c.cap * sz := Nat.le_mul_of_pos_right _ hs
  have hall := touchAll_ok h
  cases o with
  | ctor n =>
    have hn : n * sz < 2 ^ 64 := hn
    show (alloc lim sz n >>= _) = _ ∨ ((alloc lim sz n >>= _) = _ ∧ _) ∨ ∃ c', (alloc lim sz n >>= _) = _ ∧ _
    rcases alloc_cases (lim := lim) hs hn with ⟨ha, _⟩ | ⟨ha, hle⟩
    · left
      rw [ha]
      rfl
    · right; right
      rw [ha]
      refine ⟨⟨if n = 0 then none else some (n * sz), 0, n, 0⟩, ?_, ⟨rfl, hle, Nat.zero_le _, fun _ => by dsimp only; omega⟩, rfl⟩
      show (touchAll k sz c >>= _) = _
      rw [hall]
      rfl
  | make n =>
    have hn : n * sz < 2 ^ 64 := hn
    by_cases hk : k = .vec
    · have hst : step k lim sz c (.make n) = (do
          let d ← alloc lim sz n
          touch d sz 0 n
          touchAll k sz c
          .ok ⟨d, n, n, 0⟩) := by
        show (if _ then _ else _) = _
        rw [if_pos hk]
      rw [hst]
      rcases alloc_cases (lim := lim) hs hn with ⟨ha, _⟩ | ⟨ha, hle⟩
      · left
        rw [ha]
        rfl
      · right; right
        rw [ha]
        refine ⟨⟨if n = 0 then none else some (n * sz), n, n, 0⟩, ?_, ⟨rfl, hle, Nat.le_refl _, fun hq => ?_⟩, ?_⟩
        · show (touch _ sz 0 n >>= _) = _
          rw [touch_ok (n := n) rfl (by omega)]
          show (touchAll k sz c >>= _) = _
          rw [hall]
          rfl
        · rw [hk] at hq
          cases hq
        · show some (if _ then _ else _) = _
          rw [if_pos hk]
    · right; right
      refine ⟨c, ?_, h, ?_⟩
      · show (if _ then _ else _) = _
        rw [if_neg hk]
      · show some (if _ then _ else _) = _
        rw [if_neg hk]
  | reserve n =>
    have hn : n * sz < 2 ^ 64 := hn
    rcases reserve_good hs h hn with ⟨hr, _⟩ | ⟨c', hr, hg, hlen, _⟩
    · exact .inl hr
    · exact .inr (.inr ⟨c', hr, hg, by rw [hlen]; rfl⟩)
  | resize n =>
    have hn : n * sz < 2 ^ 64 := hn
    by_cases hk : k = .vec
    · subst hk
      have hst : step .vec lim sz c (.resize n) = (reserve .vec lim sz c n >>= fun c =>
          touch c.data sz (min n c.len) (max n c.len) >>= fun _ => .ok { c with len := n }) := rfl
      rw [hst]
      rcases reserve_good hs h hn with ⟨hr, _⟩ | ⟨c', hr, hg, hlen, hcap'⟩
      · left
        rw [hr]
        rfl
      · right; right
        rw [hr]
        refine ⟨{ c' with len := n }, ?_, ⟨hg.data, hg.room, by dsimp only; omega, fun hq => by cases hq⟩, rfl⟩
        show (touch c'.data sz (min n c'.len) (max n c'.len) >>= _) = _
        have := hg.len
        rw [touch_ok hg.data (by omega)]
        rfl
    · right; right
      refine ⟨c, ?_, h, ?_⟩
      · show (if _ then _ else _) = _
        rw [if_neg hk]
      · show some (if _ then _ else _) = _
        rw [if_neg hk]
  | extend m =>
    by_cases hk : k = .vec
    · subst hk
      have hn' : (c.len + m) * sz < 2 ^ 64 := hn
      have hw : wadd c.len m = c.len + m :=
        Nat.mod_eq_of_lt (Nat.lt_of_le_of_lt (Nat.le_mul_of_pos_right _ hs) hn')
      have hst : step .vec lim sz c (.extend m) = (reserve .vec lim sz c (c.len + m) >>= fun c' =>
          touch c'.data sz (min (c.len + m) c'.len) (max (c.len + m) c'.len) >>= fun _ => .ok { c' with len := c.len + m }) := by
        show resize lim sz c (wadd c.len m) = _
        rw [hw]
        rfl
      rw [hst]
      rcases reserve_good hs h hn' with ⟨hr, _⟩ | ⟨c', hr, hg, hlen, hcap'⟩
      · left
        rw [hr]
        rfl
      · right; right
        rw [hr]
        refine ⟨{ c' with len := c.len + m }, ?_, ⟨hg.data, hg.room, by dsimp only; omega, fun hq => by cases hq⟩, rfl⟩
        show (touch c'.data sz (min (c.len + m) c'.len) (max (c.len + m) c'.len) >>= _) = _
        have := hg.len
        rw [touch_ok hg.data (by omega)]
        rfl
    · right; right
      refine ⟨c, ?_, h, ?_⟩
      · show (if _ then _ else _) = _
        rw [if_neg hk]
      · show some (if _ then _ else _) = _
        rw [if_neg hk]
  | push =>
    rcases push_good hs hs8 hlim h with ⟨hp, _⟩ | ⟨c', hp, hg, hlen, _⟩
    · exact .inl hp
    · exact .inr (.inr ⟨c', hp, hg, by rw [hlen]; rfl⟩)
  | pop =>
    by_cases h0 : c.len = 0
    · right; left
      constructor
      · show (if _ then _ else _) = _
        rw [if_pos h0]
      · show (if _ then _ else _) = _
        rw [if_pos h0]
    · right; right
      refine ⟨{ c with len := c.len - 1 }, ?_, ⟨h.data, h.room, by dsimp only; omega, h.last⟩, ?_⟩
      · show (if _ then _ else _) = _
        rw [if_neg h0]
        cases k with
        | vec =>
          show (touch _ _ _ _ >>= _) = _
          rw [touch_ok h.data (by omega)]
          rfl
        | heap =>
          show (touch _ _ _ _ >>= _) = _
          rw [touch_ok h.data (by omega)]
          show (touch _ _ _ _ >>= _) = _
          rw [touch_ok h.data (by omega)]
          rfl
        | queue =>
          have hq := h.last rfl
          have hi : (if c.len ≤ c.last then c.last - c.len else wadd (wsub c.last c.len) c.cap) + 1 ≤ c.cap := by
            by_cases hle : c.len ≤ c.last
            · rw [if_pos hle]
              omega
            · rw [if_neg hle]
              unfold wadd wsub
              omega
          show (touch _ _ _ _ >>= _) = _
          rw [touch_ok h.data (.inl hi)]
          rfl
      · show (if _ then _ else _) = _
        rw [if_neg h0]
  | clear =>
    right; right
    refine ⟨{ c with len := 0, last := if k = .queue then 0 else c.last }, ?_, ⟨h.data, h.room, Nat.zero_le _, fun hk => ?_⟩, rfl⟩
    · show (touchAll k sz c >>= _) = _
      rw [hall]
      rfl
    · dsimp only
      rw [if_pos hk]
      omega

/-- A program within the rules. -/
theorem run_good {k : Kind} {lim sz : Nat} (hs : 0 < sz) (hs8 : sz < 2 ^ 61) (hlim : lim < 2 ^ 63) (ops : List Op) :
    ∀ c, Good k lim sz c → Small k sz c.len ops →
      run k lim sz c ops = .error .oom ∨ (run k lim sz c ops = .error .die ∧ lenRun k c.len ops = none) ∨
      (∃ c', run k lim sz c ops = .ok c' ∧ Good k lim sz c' ∧ lenRun k c.len ops = some c'.len) := by
  induction ops with
  | nil => exact fun c h _ => .inr (.inr ⟨c, rfl, h, rfl⟩)
  | cons o os ih =>
    intro c h hsm
    show (step k lim sz c o >>= _) = _ ∨ ((step k lim sz c o >>= _) = _ ∧ (lenStep k c.len o).bind _ = none) ∨
      ∃ c', (step k lim sz c o >>= _) = _ ∧ _ ∧ (lenStep k c.len o).bind _ = _
    rcases step_good hs hs8 hlim h o (hsm [] o os c.len rfl rfl) with he | ⟨he, hl⟩ | ⟨c', he, hg, hl⟩
    · left
      rw [he]
      rfl
    · right; left
      rw [he, hl]
      exact ⟨rfl, rfl⟩
    · rw [he, hl]
      refine ih c' hg fun pre o' post l hp hr => hsm (o :: pre) o' post l (by rw [hp]; rfl) ?_
      show (lenStep k c.len o).bind _ = _
      rw [hl]
      exact hr

/-- Pushing into an empty container. -/
theorem pushes_good {k : Kind} {lim sz : Nat} (hs : 0 < sz) (hs8 : sz < 2 ^ 61) (hlim : lim < 2 ^ 63) (m : Nat) :
    ∀ c, Good k lim sz c → (2 * (c.len + m) + 8) * sz ≤ lim →
      ∃ c', run k lim sz c (List.replicate m .push) = .ok c' ∧ c'.len = c.len + m := by
  induction m with
  | zero => exact fun c _ _ => ⟨c, rfl, rfl⟩
  | succ m ih =>
    intro c h hb
    show ∃ c', (push k lim sz c >>= _) = _ ∧ _
    rcases push_good hs hs8 hlim h with ⟨_, hfull, hlt⟩ | ⟨c', hp, hg, hlen, _⟩
    · exfalso
      have : (if c.cap = 0 then 8 else 2 * c.cap) ≤ 2 * (c.len + (m + 1)) + 8 := by
        by_cases h0 : c.cap = 0
        · rw [if_pos h0]
          omega
        · rw [if_neg h0]
          omega
      have := Nat.mul_le_mul_right sz this
      omega
    · rw [hp]
      obtain ⟨c'', hr, hl⟩ := ih c' hg (by rw [hlen, show c.len + 1 + m = c.len + (m + 1) by omega]; exact hb)
      exact ⟨c'', hr, by omega⟩

/-- A block smaller than the capacity. -/
theorem pushes_over {k : Kind} {lim sz n w : Nat} (hs : 0 < sz) (hn : n < 2 ^ 64) (hw : w < n * sz) (m : Nat) :
    ∀ l, l ≤ w / sz → l + m ≤ w / sz →
      run k lim sz ⟨if w = 0 then none else some w, l, n, l⟩ (List.replicate m .push) =
        .ok ⟨if w = 0 then none else some w, l + m, n, l + m⟩ := by
  have hq : w / sz < n := Nat.div_lt_of_lt_mul (by rw [Nat.mul_comm]; exact hw)
  induction m with
  | zero => exact fun l _ _ => rfl
  | succ m ih =>
    intro l hl hm
    show (push k lim sz _ >>= _) = _
    have hp : push k lim sz ⟨if w = 0 then none else some w, l, n, l⟩ =
        .ok ⟨if w = 0 then none else some w, l + 1, n, l + 1⟩ := by
      unfold push
      have h1 : ¬ l = n := by omega
      dsimp only
      rw [if_neg h1]
      have hx : ¬ (k = .vec ∧ ¬ l < n) := fun hx => hx.2 (by omega)
      show (if k = .vec ∧ ¬ l < n then _ else _) = _
      rw [if_neg hx]
      have h2 : (if k = .queue then l else l) = l := by split <;> rfl
      have h3 : (l + 1) * sz ≤ w := by
        have := Nat.mul_le_mul_right sz (show l + 1 ≤ w / sz by omega)
        exact Nat.le_trans this (Nat.div_mul_le_self w sz)
      have h4 : ¬ w = 0 := by
        intro h0
        rw [h0, Nat.zero_div] at hm
        omega
      have ht : touch (if w = 0 then none else some w) sz l (l + 1) = .ok () := by
        unfold touch
        rw [if_neg (by omega), if_neg h4]
        simp only
        rw [if_pos h3]
      have h5 : wadd l 1 = l + 1 := Nat.mod_eq_of_lt (by omega)
      have h6 : ¬ l = wsub n 1 := by
        unfold wsub
        omega
      dsimp only
      rw [h2, h5, if_neg h6]
      show (touch _ _ _ _ >>= _) = _
      rw [ht]
      rfl
    rw [hp]
    have := ih (l + 1) (by omega) (by omega)
    rw [show l + 1 + m = l + (m + 1) by omega] at this
    exact this

/-- The push after the block is full. -/
theorem push_over {k : Kind} {lim sz n w : Nat} (hs : 0 < sz) (hw : w < n * sz) :
    push k lim sz ⟨if w = 0 then none else some w, w / sz, n, w / sz⟩ = .error .ub := by
  have hq : w / sz < n := Nat.div_lt_of_lt_mul (by rw [Nat.mul_comm]; exact hw)
  unfold push
  have h1 : ¬ w / sz = n := by omega
  dsimp only
  rw [if_neg h1]
  have hx : ¬ (k = .vec ∧ ¬ w / sz < n) := fun hx => hx.2 (by omega)
  show (if k = .vec ∧ ¬ w / sz < n then _ else _) = _
  rw [if_neg hx]
  have h2 : (if k = .queue then w / sz else w / sz) = w / sz := by split <;> rfl
  have ht : touch (if w = 0 then none else some w) sz (w / sz) (w / sz + 1) = .error .ub := by
    unfold touch
    rw [if_neg (by omega)]
    by_cases h0 : w = 0
    · rw [if_pos h0]
    · rw [if_neg h0]
      simp only
      have : w < (w / sz + 1) * sz := by
        have := Nat.lt_div_mul_add (a := w) hs
        rw [Nat.add_mul]
        omega
      rw [if_neg (by omega)]
  dsimp only
  rw [h2]
  show (touch _ _ _ _ >>= _) = _
  rw [ht]
  rfl

theorem run_append (k : Kind) (lim sz : Nat) (a b : List Op) :
    ∀ c, run k lim sz c (a ++ b) = run k lim sz c a >>= fun c => run k lim sz c b := by
  induction a with
  | nil => exact fun _ => rfl
  | cons o os ih =>
    intro c
    show (step k lim sz c o >>= fun c => run k lim sz c (os ++ b)) = ((step k lim sz c o >>= fun c => run k lim sz c os) >>= _)
    cases step k lim sz c o with
    | error e => rfl
    | ok c' => exact ih c'

/-- `reserve` where the number of bytes wraps. -/
theorem reserve_wraps {k : Kind} {lim sz : Nat} {c : C} (hs : 0 < sz) (h : Good k lim sz c) {n : Nat} (hc : c.cap < n) :
    reserve k lim sz c n =
      if lim < n * sz % 2 ^ 64 then .error .oom
      else if n * sz % 2 ^ 64 < c.len * sz ∧ (k = .vec → n * sz % 2 ^ 64 ≠ 0) then .error .ub
      else .ok ⟨if n * sz % 2 ^ 64 = 0 then none else some (n * sz % 2 ^ 64), c.len, n, c.len⟩ := by
  have hall := touchAll_ok h
  have hl := h.len
  unfold reserve alloc wmul
  rw [if_neg (by omega)]
  generalize n * sz % 2 ^ 64 = w
  have ht : w ≠ 0 → touch (some w) sz 0 c.len = if w < c.len * sz then .error .ub else .ok () := by
    intro hw
    unfold touch
    by_cases h0 : c.len ≤ 0
    · rw [if_pos h0, if_neg (by rw [Nat.le_zero.mp h0]; omega)]
    · rw [if_neg h0]
      simp only
      by_cases hlt : w < c.len * sz
      · rw [if_neg (by omega), if_pos hlt]
      · rw [if_pos (by omega), if_neg hlt]
  by_cases hw : w = 0
  · subst hw
    rw [if_pos rfl, if_neg (Nat.not_lt_zero _)]
    show (if k = .vec ∧ (c.data = none ∨ (none : Option Nat) = none) then _ else _) = _
    by_cases hk : k = .vec
    · rw [if_pos ⟨hk, .inr rfl⟩, if_neg (fun hx => hx.2 hk rfl)]
      rfl
    · rw [if_neg (fun hx => hk hx.1), hall]
      show (touch none sz 0 c.len >>= _) = _
      unfold touch
      by_cases h0 : c.len ≤ 0
      · rw [if_pos h0, if_neg (fun hx => by rw [Nat.le_zero.mp h0, Nat.zero_mul] at hx; omega)]
        rfl
      · rw [if_neg h0, if_pos ⟨Nat.mul_pos (by omega) hs, fun hv => absurd hv hk⟩]
        rfl
  · rw [if_neg hw]
    by_cases hlim : lim < w
    · rw [if_pos hlim, if_pos hlim]
      rfl
    · rw [if_neg hlim, if_neg hlim]
      show (if k = .vec ∧ (c.data = none ∨ (some w) = none) then _ else _) = _
      rw [if_neg hw]
      by_cases hk : k = .vec ∧ (c.data = none ∨ (some w) = none)
      · rw [if_pos hk]
        have hd : c.data = none := by
          rcases hk.2 with hd | hd
          · exact hd
          · cases hd
        have h0 : c.cap = 0 := by
          by_cases h0 : c.cap = 0
          · exact h0
          · have := h.data
            rw [if_neg h0, hd] at this
            cases this
        have h1 : c.len = 0 := by omega
        rw [if_neg (fun hx => by rw [h1, Nat.zero_mul] at hx; omega)]
      · rw [if_neg hk, hall]
        show (touch (some w) sz 0 c.len >>= _) = _
        rw [ht hw]
        by_cases hlt : w < c.len * sz
        · rw [if_pos hlt, if_pos ⟨hlt, fun _ => hw⟩]
          rfl
        · rw [if_neg hlt, if_neg (fun hx => hlt hx.1)]
          rfl

/-- `extend` to a smaller length. -/
theorem extend_shrinks {lim sz m l : Nat} {ops : List Op} {c : C} (hr : run .vec lim sz C.empty ops = .ok c)
    (hg : Good .vec lim sz c) (hw : wadd c.len m = l) (hlt : l < c.len) :
    run .vec lim sz C.empty (ops ++ [.extend m]) = .ok { c with len := l } := by
  have h2 := hg.len
  rw [run_append, hr]
  show (resize lim sz c (wadd c.len m) >>= fun c => .ok c) = _
  rw [hw]
  have hres : resize lim sz c l = .ok { c with len := l } := by
    unfold resize reserve
    rw [if_pos (by omega)]
    show (touch c.data sz (min l c.len) (max l c.len) >>= _) = _
    rw [touch_ok hg.data (by omega)]
    rfl
  rw [hres]
  rfl

end Rpp.Room
