import Verif.Proof.RangeOwner

/-!
# Destruction and moves of `rpp::Range_Allocator`: theorems

`s.fresh` is the number of blocks taken from the base allocator so far, under the addresses `0 .. fresh - 1`.
-/

namespace Rpp.Props
open Rpp Rpp.Spec Rpp.RA

variable {B bias cap : Nat} {s : RA} {g : List Grant}

/-- **C101.** After any history the destructor gives every block back to the base allocator exactly once, except
those of the ranges still in use, which it never gives back. -/
theorem C101_destructor_exact (hB : 0 < B ∧ B < 256) (h0 : 0 < cap) (hcap : cap < 2 ^ 64) (h : Run B bias cap s g) :
    ∃ o, RAOwner.dtor B ⟨true, s, []⟩ = .ok o ∧ o.freed.Nodup ∧
      ∀ i, i ∈ o.freed ↔ i < s.fresh ∧ ∀ r ∈ g, r.handle ≠ i := by
  obtain ⟨⟨L, hi⟩, hl⟩ := h.inv hB hcap h0
  obtain ⟨F, hF⟩ := hi.free
  have hfree : ∀ j x, x ∈ F j → ∃ b, s.mem x = some b ∧ b.free = true := by
    intro j x hx
    obtain ⟨r, u1, _⟩ := (hF.mem x j).1 hx
    obtain ⟨b, b1, b2, _⟩ := Fv_some u1
    exact ⟨b, b1, b2⟩
  have hlt : ∀ j x, x ∈ F j → x < s.fresh := by
    intro j x hx
    obtain ⟨b, b1, _⟩ := hfree j x hx
    exact (hi.pool.all x).2 (.inr ⟨_, Mv_of b1⟩)
  obtain ⟨s', e, e1, l, l1, l2, l3, l4⟩ := reset_ok B 0 s s hF rfl hlt (fun _ _ => rfl) (fun _ _ _ _ => rfl)
  refine ⟨_, by simp only [RAOwner.dtor, RAOwner.lock, if_true, e, bind, Except.bind]; rfl, ?_, ?_⟩
  · dsimp only [RAOwner.clear]
    rw [List.append_nil, l2, List.nodup_append]
    refine ⟨l1, hi.pool.nodup, ?_⟩
    rintro a ha b hb rfl
    obtain ⟨k, _, _, k3⟩ := (l3 a).1 ha
    obtain ⟨b, b1, _⟩ := hfree k a k3
    have := hi.pool.dis a hb
    rw [Mv_of b1] at this
    cases this
  · intro i
    dsimp only [RAOwner.clear]
    rw [List.append_nil, l2, List.mem_append, l3, hi.pool.all i]
    constructor
    · rintro (⟨k, _, _, k3⟩ | hp)
      · obtain ⟨b, b1, b2⟩ := hfree k i k3
        refine ⟨.inr ⟨_, Mv_of b1⟩, ?_⟩
        rintro r hr rfl
        obtain ⟨b', c1, _, _, _, c5⟩ := live_mem (hl.lv r hr)
        rw [b1] at c1
        cases c1
        rw [b2] at c5
        cases c5
      · refine ⟨.inl hp, ?_⟩
        rintro r hr rfl
        obtain ⟨b', c1, _⟩ := live_mem (hl.lv r hr)
        have := hi.pool.dis _ hp
        rw [Mv_of c1] at this
        cases this
    · rintro ⟨hp | ⟨b, hb⟩, hg⟩
      · exact .inr hp
      · left
        unfold Mv at hb
        cases hm : s.mem i with
        | none => rw [hm] at hb; cases hb
        | some blk =>
          cases hf : blk.free with
          | true =>
            refine ⟨size_to_idx B bias blk.size, by omega, ?_, (hF.mem i _).2 ⟨_, Fv_of hm hf, rfl⟩⟩
            have := size_to_idx_lt (bias := bias) hB.1 blk.size
            omega
          | false =>
            obtain ⟨r, hr, hri⟩ := hl.all i _ (mem_live hm hf)
            exact absurd hri (hg r hr)

/-- **C101.** So everything is given back if all ranges were freed. -/
theorem C101_destructor_frees_all (hB : 0 < B ∧ B < 256) (h0 : 0 < cap) (hcap : cap < 2 ^ 64)
    (h : Run B bias cap s []) :
    ∃ o, RAOwner.dtor B ⟨true, s, []⟩ = .ok o ∧ o.freed.Perm (List.range s.fresh) := by
  obtain ⟨o, e, n, m⟩ := C101_destructor_exact hB h0 hcap h
  refine ⟨o, e, (List.perm_ext_iff_of_nodup n List.nodup_range).2 fun i => ?_⟩
  rw [m i, List.mem_range]
  simp

/-- **C101 is false of the code** for ranges in use: their blocks are lost, whatever the history. -/
theorem C101_live_ranges_leak (hB : 0 < B ∧ B < 256) (h0 : 0 < cap) (hcap : cap < 2 ^ 64) (h : Run B bias cap s g)
    (r : Grant) (hr : r ∈ g) :
    ∃ o, RAOwner.dtor B ⟨true, s, []⟩ = .ok o ∧ r.handle < s.fresh ∧ r.handle ∉ o.freed := by
  obtain ⟨o, e, n, m⟩ := C101_destructor_exact hB h0 hcap h
  obtain ⟨⟨L, hi⟩, hl⟩ := h.inv hB hcap h0
  obtain ⟨b', c1, _⟩ := live_mem (hl.lv r hr)
  exact ⟨o, e, (hi.pool.all _).2 (.inr ⟨_, Mv_of c1⟩), fun c => ((m _).1 c).2 r hr rfl⟩

/-- A heap of 100 of which 10 are in use: two blocks were made, the free one is given back. -/
example : (do
    let s ← make_heap 24 8 100
    let (s, b) ← RA.allocate 24 8 s 10 1
    let o ← RAOwner.dtor 24 ⟨true, s, []⟩
    return (b, s.fresh, o.freed) : Res (Option Nat × Nat × List Nat)) = .ok (some 0, 2, [1]) := by
  decide +kernel

/-- The same after the range was freed. -/
example : (do
    let s ← make_heap 24 8 100
    let (s, _) ← RA.allocate 24 8 s 10 1
    let s ← RA.free 24 8 s 0
    let o ← RAOwner.dtor 24 ⟨true, s, []⟩
    return (s.fresh, o.freed) : Res (Nat × List Nat)) = .ok (2, [0, 1]) := by
  decide +kernel

/-- **C102, partial.** A move hands over the blocks, the ranges in use and the statistics unchanged, and leaves an
allocator without capacity that passes `assert_clear`. Missing: that the result can be used (`C102_moved_unusable`). -/
theorem C102_move_contents_partial (dst src : RAOwner) (d : RAOwner × RAOwner)
    (h : RAOwner.moveAssign B dst src = .ok d) :
    d.1.ra = src.ra ∧ (∀ k, d.2.ra.heads k = none) ∧ d.2.ra.st.total_capacity = 0 ∧ d.2.mutex = true ∧ assert_clear B d.2.ra.st = .ok () := by
  have hz : ∀ n, (List.range n).foldl (fun a _ => wadd a 0) 0 = 0 := fun n => by
    induction n with
    | zero => rfl
    | succ n ih => rw [List.range_succ, List.foldl_append, ih]; rfl
  unfold RAOwner.moveAssign at h
  cases h1 : dst.dtor B with
  | error x => rw [h1] at h; cases h
  | ok d1 =>
    rw [h1] at h
    cases h2 : src.mutex with
    | false => simp [RAOwner.lock, h2, bind, Except.bind] at h
    | true =>
      simp only [RAOwner.lock, h2, bind, Except.bind, if_true, pure, Except.pure] at h
      cases h
      refine ⟨rfl, fun _ => rfl, rfl, rfl, ?_⟩
      unfold assert_clear
      simp [RA.init, hz]

/-- **C102 is false of the code:** the assigned allocator's mutex was destroyed and not made again. Every later
operation on it is undefined, its destructor included. This is so for every move, also of allocators
that were never used. -/
theorem C102_moved_unusable (bias : Nat) (dst src : RAOwner) (d : RAOwner × RAOwner)
    (h : RAOwner.moveAssign B dst src = .ok d) :
    (∀ size align, 0 < size → 0 < align → RAOwner.allocate B bias d.1 size align = .error .ub) ∧
    (∀ b, RAOwner.free B bias d.1 b = .error .ub) ∧ RAOwner.dtor B d.1 = .error .ub := by
  have hm : d.1.mutex = false := by
    unfold RAOwner.moveAssign at h
    cases h1 : dst.dtor B with
    | error x => rw [h1] at h; cases h
    | ok d1 =>
      have hd : d1.mutex = false := by
        unfold RAOwner.dtor at h1
        cases h3 : dst.lock with
        | error x => rw [h3] at h1; cases h1
        | ok u =>
          cases h4 : RA.reset dst.ra B 0 with
          | error x => simp [h3, h4, bind, Except.bind] at h1
          | ok ra =>
            simp only [h3, h4, bind, Except.bind, pure, Except.pure] at h1
            cases h1
            rfl
      rw [h1] at h
      cases h2 : src.mutex with
      | false => simp [RAOwner.lock, h2, bind, Except.bind] at h
      | true =>
        simp only [RAOwner.lock, h2, bind, Except.bind, if_true, pure, Except.pure] at h
        cases h
        exact hd
  refine ⟨fun size align h1 h2 => ?_, fun b => ?_, ?_⟩
  · have h1' : ¬ size = 0 := by omega
    have h2' : ¬ align = 0 := by omega
    simp [RAOwner.allocate, RAOwner.lock, hm, h1', h2', bind, Except.bind, pure, Except.pure]
  · simp [RAOwner.free, RAOwner.lock, hm, bind, Except.bind]
  · simp [RAOwner.dtor, RAOwner.lock, hm, bind, Except.bind]

/-- **C102.** Moves of allocators in any reachable state do get that far: the hypotheses above are met. -/
theorem C102_move_reached (hB : 0 < B ∧ B < 256) (h0 : 0 < cap) (hcap : cap < 2 ^ 64) (h : Run B bias cap s g)
    (src : RAOwner) (hs : src.mutex = true) :
    ∃ d, RAOwner.moveAssign B ⟨true, s, []⟩ src = .ok d := by
  obtain ⟨o, e, _⟩ := C101_destructor_exact hB h0 hcap h
  exact ⟨_, by simp only [RAOwner.moveAssign, e, RAOwner.lock, hs, if_true, bind, Except.bind]; rfl⟩

/-- **C102 is false of the code** for an allocator assigned to itself too: its mutex is locked after it was destroyed. -/
theorem C102_self_move (hB : 0 < B ∧ B < 256) (h0 : 0 < cap) (hcap : cap < 2 ^ 64) (h : Run B bias cap s g) :
    RAOwner.moveSelf B ⟨true, s, []⟩ = .error .ub := by
  obtain ⟨o, e, _⟩ := C101_destructor_exact hB h0 hcap h
  have hm : o.mutex = false := by
    unfold RAOwner.dtor at e
    cases h4 : RA.reset s B 0 with
    | error x => simp [RAOwner.lock, h4, bind, Except.bind] at e
    | ok ra =>
      simp only [RAOwner.lock, h4, bind, Except.bind, pure, Except.pure, if_true] at e
      cases e
      rfl
  simp [RAOwner.moveSelf, e, RAOwner.lock, hm, bind, Except.bind]

/-- **C102 is false of the code** for move construction too: it always succeeds and hands over the blocks, nothing is given
back, and the new allocator cannot be used or destroyed. -/
theorem C102_move_ctor (bias : Nat) (src : RAOwner) (hs : src.mutex = true) :
    ∃ d, RAOwner.moveCtor B src = .ok d ∧ d.1.ra = src.ra ∧ d.1.freed = [] ∧ d.2.freed = src.freed ∧
      (∀ size align, 0 < size → 0 < align → RAOwner.allocate B bias d.1 size align = .error .ub) ∧
      (∀ b, RAOwner.free B bias d.1 b = .error .ub) ∧ RAOwner.dtor B d.1 = .error .ub := by
  obtain ⟨s', e, hp⟩ := reset_none B 0 RA.init (fun _ => rfl)
  have h : RAOwner.moveCtor B src = .ok (⟨false, src.ra, s'.pool ++ []⟩,
      { src with ra := { RA.init with fresh := src.ra.fresh } }) := by
    simp only [RAOwner.moveCtor, RAOwner.moveAssign, RAOwner.dtor, RAOwner.empty, RAOwner.lock, if_true, e, hs, bind,
      Except.bind]
    rfl
  have hu := C102_moved_unusable (B := B) bias _ src _ h
  exact ⟨_, h, rfl, by dsimp only; rw [hp]; rfl, rfl, hu⟩

/-- A fresh allocator moved into a new variable cannot even be destroyed. -/
example : (do
    let s ← make_heap 24 8 100
    let (d, _) ← RAOwner.moveCtor 24 ⟨true, s, []⟩
    let d ← RAOwner.dtor 24 d
    return d.freed : Res (List Nat)) = .error .ub := by
  decide +kernel

end Rpp.Props
