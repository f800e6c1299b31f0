import Verif.Spec.LogTime

/-! # Proofs about the times in the log -/

namespace Rpp.LogTime

open Rpp.LogTime.Spec

theorem strftime_length (t : Tm) : (strftime t).length = 10 := rfl

theorem sysTimeString_ok {z : Zone} {x : Nat} {b : List Char} : sysTimeString z x = .ok b ↔ ∃ tm, z x = some tm ∧ b = strftime tm := by
  unfold sysTimeString
  cases z x with
  | none => simp
  | some tm =>
    have hc : 0 < (strftime tm).length ∧ (strftime tm).length + 1 ≤ 64 := by rw [strftime_length]; decide
    simp only [if_pos hc]
    constructor
    · intro h
      cases h
      exact ⟨tm, rfl, rfl⟩
    · rintro ⟨_, h, rfl⟩
      cases h
      rfl

theorem shown_ok {z : Zone} {s s' : State} {t x : Nat} (h : shown z s t x = .ok s') :
    ∃ tm, z x = some tm ∧ s' = { s with buffer := put s.buffer t (strftime tm) } := by
  unfold shown at h
  cases hb : sysTimeString z x with
  | error e => rw [hb] at h; cases h
  | ok b =>
    rw [hb] at h
    obtain ⟨tm, h1, rfl⟩ := sysTimeString_ok.1 hb
    cases h
    exact ⟨tm, h1, rfl⟩

/-- What a step can be. -/
theorem step_cases {z : Zone} {s s' : State} {e : Ev} (h : step z s e = some (.ok s')) :
    (∃ n, e = .tick n ∧ s' = { s with clock := s.clock + n }) ∨
    (∃ t m, e = .call t m ∧ s.pc t = .idle ∧ s' = { s with pc := put s.pc t (.timed s.clock m) }) ∨
    (∃ t c m tm, e = .enter t ∧ s.pc t = .timed c m ∧ s.lock = none ∧ z c = some tm ∧
      s' = { s with lock := some t, pc := put s.pc t (.inside c m), buffer := put s.buffer t (strftime tm), out := s.out ++ [⟨t, strftime tm, m⟩] }) ∨
    (∃ t x c m tm, e = .back t x ∧ s.pc t = .inside c m ∧ z (x.getD c) = some tm ∧ s' = { s with buffer := put s.buffer t (strftime tm) }) ∨
    (∃ t c m, e = .leave t ∧ s.pc t = .inside c m ∧ s' = { s with lock := none, pc := put s.pc t .idle, file := s.file ++ [⟨t, s.buffer t, m⟩] }) ∨
    (∃ t x tm, e = .show t x ∧ s.pc t = .idle ∧ s' = { s with buffer := put s.buffer t (strftime tm) }) := by
  cases e with
  | tick n => simp only [step] at h; cases h; exact .inl ⟨n, rfl, rfl⟩
  | call t m =>
    simp only [step] at h
    split at h
    · rename_i hp
      cases h
      exact .inr (.inl ⟨t, m, rfl, hp, rfl⟩)
    · cases h
  | enter t =>
    simp only [step] at h
    split at h
    · rename_i c m hp hl
      cases hs : shown z s t c with
      | error x => rw [hs] at h; cases h
      | ok s1 =>
        rw [hs] at h
        obtain ⟨tm, h1, rfl⟩ := shown_ok hs
        cases h
        refine .inr (.inr (.inl ⟨t, c, m, tm, rfl, hp, hl, h1, ?_⟩))
        simp [put]
    · cases h
  | back t x =>
    simp only [step] at h
    split at h
    · rename_i c m hp
      simp only [Option.some.injEq] at h
      obtain ⟨tm, h1, h2⟩ := shown_ok h
      exact .inr (.inr (.inr (.inl ⟨t, x, c, m, tm, rfl, hp, h1, h2⟩)))
    · cases h
  | leave t =>
    simp only [step] at h
    split at h
    · rename_i c m hp
      cases h
      exact .inr (.inr (.inr (.inr (.inl ⟨t, c, m, rfl, hp, rfl⟩))))
    · cases h
  | «show» t x =>
    simp only [step] at h
    split at h
    · rename_i hp
      simp only [Option.some.injEq] at h
      obtain ⟨tm, h1, h2⟩ := shown_ok h
      exact .inr (.inr (.inr (.inr (.inr ⟨t, x, tm, rfl, hp, h2⟩))))
    · cases h

/-- The line of a call that is not on the console yet. -/
def due (z : Zone) (s : State) (t : Nat) : List Line :=
  match s.pc t with
  | .timed c m => [line z t (c, m)]
  | _ => []

theorem line_eq {z : Zone} {c m t : Nat} {tm : Tm} (h : z c = some tm) : line z t (c, m) = ⟨t, strftime tm, m⟩ := by
  simp [line, h]

theorem linesOf_concat (t : Nat) (l : List Line) (x : Line) : linesOf t (l ++ [x]) = linesOf t l ++ if x.thread = t then [x] else [] := by
  unfold linesOf
  rw [List.filter_append]
  by_cases h : x.thread = t <;> simp [h]

/-- The new calls of a step, and the clock after it. -/
theorem out_step {z : Zone} {s s' : State} {e : Ev} (h : step z s e = some (.ok s')) (t : Nat) (es : List Ev) :
    linesOf t s'.out ++ due z s' t ++ (calls t s'.clock es).map (line z t) =
      linesOf t s.out ++ due z s t ++ (calls t s.clock (e :: es)).map (line z t) := by
  rcases step_cases h with ⟨n, rfl, rfl⟩ | ⟨u, m, rfl, hp, rfl⟩ | ⟨u, c, m, tm, rfl, hp, hl, hz, rfl⟩ | ⟨u, x, c, m, tm, rfl, hp, hz, rfl⟩ |
    ⟨u, c, m, rfl, hp, rfl⟩ | ⟨u, x, tm, rfl, hp, rfl⟩
  · rfl
  · simp only [due, put, calls]
    by_cases hu : u = t
    · subst hu
      simp [hp]
    · simp [hu, Ne.symm hu]
  · simp only [due, put, calls, linesOf_concat]
    by_cases hu : u = t
    · subst hu
      simp [hp, line_eq hz]
    · simp [hu, Ne.symm hu]
  · simp only [due, calls]
  · simp only [due, put, calls]
    by_cases hu : u = t
    · subst hu
      simp [hp]
    · simp [Ne.symm hu]
  · simp only [due, calls]

theorem out_run {z : Zone} {t : Nat} : ∀ (es : List Ev) (s s' : State), run z s es = some (.ok s') →
    linesOf t s'.out ++ due z s' t = linesOf t s.out ++ due z s t ++ (calls t s.clock es).map (line z t)
  | [], s, s', h => by cases h; simp [calls]
  | e :: es, s, s', h => by
    simp only [run] at h
    split at h
    · rename_i s1 h1
      rw [out_run es s1 s' h, out_step h1]
    · cases h
    · cases h

/-- The thread with the lock is the one that is inside; what it wrote last is to be written to the file. -/
structure Inv (s : State) : Prop where
  free : s.lock = none → (∀ t c m, s.pc t ≠ .inside c m) ∧ s.file.map (fun l => (l.thread, l.msg)) = s.out.map fun l => (l.thread, l.msg)
  held : ∀ t, s.lock = some t → (∃ c m, s.pc t = .inside c m ∧
    s.out.map (fun l => (l.thread, l.msg)) = s.file.map (fun l => (l.thread, l.msg)) ++ [(t, m)]) ∧ ∀ u c m, s.pc u = .inside c m → u = t

theorem Inv.inside {s : State} (h : Inv s) {t c m : Nat} (hp : s.pc t = .inside c m) :
    s.lock = some t ∧ s.out.map (fun l => (l.thread, l.msg)) = s.file.map (fun l => (l.thread, l.msg)) ++ [(t, m)] := by
  cases hl : s.lock with
  | none => exact absurd hp ((h.free hl).1 t c m)
  | some u =>
    obtain ⟨⟨c', m', h1, h2⟩, h3⟩ := h.held u hl
    have := h3 t c m hp
    subst this
    rw [hp] at h1
    cases h1
    exact ⟨rfl, h2⟩

theorem inv_step {z : Zone} {s s' : State} {e : Ev} (hi : Inv s) (h : step z s e = some (.ok s')) : Inv s' := by
  rcases step_cases h with ⟨n, rfl, rfl⟩ | ⟨u, m, rfl, hp, rfl⟩ | ⟨u, c, m, tm, rfl, hp, hl, hz, rfl⟩ | ⟨u, x, c, m, tm, rfl, hp, hz, rfl⟩ |
    ⟨u, c, m, rfl, hp, rfl⟩ | ⟨u, x, tm, rfl, hp, rfl⟩
  · exact ⟨hi.free, hi.held⟩
  · have hput : ∀ v c m', put s.pc u (.timed s.clock m) v = .inside c m' → s.pc v = .inside c m' := by
      intro v c m' hv
      unfold put at hv
      split at hv
      · cases hv
      · exact hv
    refine ⟨fun hl => ⟨fun v c m' hv => (hi.free hl).1 v c m' (hput v c m' hv), (hi.free hl).2⟩, fun t hl => ?_⟩
    obtain ⟨⟨c, m', h1, h2⟩, h3⟩ := hi.held t hl
    have htu : t ≠ u := by
      rintro rfl
      rw [hp] at h1
      cases h1
    exact ⟨⟨c, m', by simpa [put, htu] using h1, h2⟩, fun v c m' hv => h3 v c m' (hput v c m' hv)⟩
  · refine ⟨fun h => (by cases h), fun t ht => ?_⟩
    cases ht
    refine ⟨⟨c, m, by simp [put], ?_⟩, fun v c' m' hv => ?_⟩
    · simp [(hi.free hl).2]
    · by_cases hvu : v = u
      · exact hvu
      · simp only [put, if_neg hvu] at hv
        exact absurd hv ((hi.free hl).1 v c' m')
  · exact ⟨hi.free, hi.held⟩
  · obtain ⟨hl, ho⟩ := hi.inside hp
    refine ⟨fun _ => ⟨fun v c' m' hv => ?_, ?_⟩, fun t h => by cases h⟩
    · dsimp only at hv
      unfold put at hv
      split at hv
      · cases hv
      · rename_i hvu
        exact hvu ((hi.held u hl).2 v c' m' hv)
    · simp [ho]
  · exact ⟨hi.free, hi.held⟩

/-- As `Inv`, for the lines as a whole: the buffer of the thread inside is what it wrote to the console. -/
structure Same (s : State) : Prop where
  inv : Inv s
  free : s.lock = none → s.file = s.out
  held : ∀ t c m, s.pc t = .inside c m → s.out = s.file ++ [⟨t, s.buffer t, m⟩]

theorem same_step {z : Zone} {s s' : State} {e : Ev} (hz : ∀ t c m, s.pc t = .inside c m → ∃ tm, z c = some tm ∧ s.buffer t = strftime tm)
    (hs : Same s) (hb : ∀ t x, e ≠ .back t (some x)) (h : step z s e = some (.ok s')) :
    Same s' ∧ ∀ t c m, s'.pc t = .inside c m → ∃ tm, z c = some tm ∧ s'.buffer t = strftime tm := by
  have hi := inv_step hs.inv h
  rcases step_cases h with ⟨n, rfl, rfl⟩ | ⟨u, m, rfl, hp, rfl⟩ | ⟨u, c, m, tm, rfl, hp, hl, hzc, rfl⟩ | ⟨u, x, c, m, tm, rfl, hp, hzc, rfl⟩ |
    ⟨u, c, m, rfl, hp, rfl⟩ | ⟨u, x, tm, rfl, hp, rfl⟩
  · exact ⟨⟨hi, hs.free, hs.held⟩, hz⟩
  · have hput : ∀ v c m', put s.pc u (.timed s.clock m) v = .inside c m' → s.pc v = .inside c m' := by
      intro v c m' hv
      unfold put at hv
      split at hv
      · cases hv
      · exact hv
    exact ⟨⟨hi, hs.free, fun v c m' hv => hs.held v c m' (hput v c m' hv)⟩, fun v c m' hv => hz v c m' (hput v c m' hv)⟩
  · have hv : ∀ v c' m', put s.pc u (.inside c m) v = .inside c' m' → v = u ∧ c' = c ∧ m' = m := by
      intro v c' m' hv
      by_cases hvu : v = u
      · simp only [put, if_pos hvu] at hv
        cases hv
        exact ⟨hvu, rfl, rfl⟩
      · simp only [put, if_neg hvu] at hv
        exact absurd hv ((hs.inv.free hl).1 v c' m')
    refine ⟨⟨hi, fun h => (by cases h), fun v c' m' h => ?_⟩, fun v c' m' h => ?_⟩
    · obtain ⟨rfl, rfl, rfl⟩ := hv v c' m' h
      simp [put, hs.free hl]
    · obtain ⟨rfl, rfl, rfl⟩ := hv v c' m' h
      exact ⟨tm, hzc, by simp [put]⟩
  · have hx : x = none := by
      cases x with
      | none => rfl
      | some x => exact absurd rfl (hb u x)
    subst hx
    obtain ⟨tm', h1, h2⟩ := hz u c m hp
    have htm : z c = some tm := hzc
    rw [h1] at htm
    cases htm
    have hbuf : put s.buffer u (strftime tm) = s.buffer := by
      funext v
      unfold put
      split
      · rename_i hv; rw [hv, h2]
      · rfl
    rw [hbuf] at hi ⊢
    exact ⟨⟨hi, hs.free, hs.held⟩, hz⟩
  · have hl := (hs.inv.inside hp).1
    have hv : ∀ v c' m', put s.pc u .idle v ≠ .inside c' m' := by
      intro v c' m' hv
      unfold put at hv
      split at hv
      · cases hv
      · rename_i hvu
        exact hvu ((hs.inv.held u hl).2 v c' m' hv)
    exact ⟨⟨hi, fun _ => (hs.held u c m hp).symm, fun v c' m' h => absurd h (hv v c' m')⟩, fun v c' m' h => absurd h (hv v c' m')⟩
  · have hput : ∀ v c m, s.pc v = .inside c m → put s.buffer u (strftime tm) v = s.buffer v := by
      intro v c m hv
      unfold put
      split
      · rename_i hvu
        rw [hvu, hp] at hv
        cases hv
      · rfl
    refine ⟨⟨hi, hs.free, fun v c m hv => ?_⟩, fun v c m hv => ?_⟩
    · show s.out = s.file ++ [⟨v, put s.buffer u (strftime tm) v, m⟩]
      rw [hput v c m hv]
      exact hs.held v c m hv
    · obtain ⟨tm', h1, h2⟩ := hz v c m hv
      exact ⟨tm', h1, (hput v c m hv).trans h2⟩

theorem inv_init (c : Nat) : Inv (init c) := ⟨fun _ => ⟨fun _ _ _ h => (by cases h), rfl⟩, fun _ h => (by cases h)⟩

theorem inv_run {z : Zone} : ∀ (es : List Ev) (s s' : State), Inv s → run z s es = some (.ok s') → Inv s'
  | [], s, s', h, hr => by cases hr; exact h
  | e :: es, s, s', h, hr => by
    simp only [run] at hr
    split at hr
    · rename_i s1 h1
      exact inv_run es s1 s' (inv_step h h1) hr
    · cases hr
    · cases hr

theorem same_run {z : Zone} : ∀ (es : List Ev) (s s' : State), (∀ t x, Ev.back t (some x) ∉ es) → Same s →
    (∀ t c m, s.pc t = .inside c m → ∃ tm, z c = some tm ∧ s.buffer t = strftime tm) → run z s es = some (.ok s') → Same s'
  | [], s, s', _, h, _, hr => by cases hr; exact h
  | e :: es, s, s', hb, h, hz, hr => by
    simp only [run] at hr
    split at hr
    · rename_i s1 h1
      obtain ⟨h2, h3⟩ := same_step hz h (fun t x he => hb t x (by rw [he]; exact List.mem_cons_self)) h1
      exact same_run es s1 s' (fun t x hm => hb t x (List.mem_cons_of_mem _ hm)) h2 h3 hr
    · cases hr
    · cases hr

theorem two_inj {a b : Nat} (ha : a < 100) (hb : b < 100) (h : two a = two b) : a = b := by
  simp only [two, List.cons.injEq, and_true] at h
  have key : ∀ x < 10, ∀ y < 10, Char.ofNat (48 + x) = Char.ofNat (48 + y) → x = y := by decide
  have h1 := key _ (by omega) _ (by omega) h.1
  have h2 := key _ (by omega) _ (by omega) h.2
  omega

theorem calls_mono (t : Nat) : ∀ (es : List Ev) (c : Nat), (∀ x ∈ calls t c es, c ≤ x.1) ∧ ((calls t c es).map Prod.fst).Pairwise (· ≤ ·)
  | [], c => by simp [calls]
  | e :: es, c => by
    cases e with
    | tick n =>
      obtain ⟨h1, h2⟩ := calls_mono t es (c + n)
      exact ⟨fun x hx => by have := h1 x hx; omega, h2⟩
    | call u m =>
      obtain ⟨h1, h2⟩ := calls_mono t es c
      simp only [calls]
      split
      · refine ⟨fun x hx => ?_, ?_⟩
        · rcases List.mem_cons.1 hx with rfl | hx
          · exact Nat.le_refl _
          · exact h1 x hx
        · rw [List.map_cons, List.pairwise_cons]
          refine ⟨fun y hy => ?_, h2⟩
          obtain ⟨x, hx, rfl⟩ := List.mem_map.1 hy
          exact h1 x hx
      · exact ⟨h1, h2⟩
    | enter u => exact calls_mono t es c
    | back u x => exact calls_mono t es c
    | leave u => exact calls_mono t es c
    | «show» u x => exact calls_mono t es c

theorem step_res {z : Zone} (hz : ∀ x, z x ≠ none) {s : State} {e : Ev} {r : Res State} (h : step z s e = some r) : ∃ s', r = .ok s' := by
  have hs : ∀ s t x, ∃ s', shown z s t x = .ok s' := by
    intro s t x
    cases hx : z x with
    | none => exact absurd hx (hz x)
    | some tm =>
      refine ⟨{ s with buffer := put s.buffer t (strftime tm) }, ?_⟩
      unfold shown
      rw [sysTimeString_ok.2 ⟨tm, hx, rfl⟩]
      rfl
  cases e with
  | tick n => simp only [step] at h; cases h; exact ⟨_, rfl⟩
  | call t m =>
    simp only [step] at h
    split at h <;> cases h
    exact ⟨_, rfl⟩
  | enter t =>
    simp only [step] at h
    split at h
    · rename_i c m _ _
      obtain ⟨s', hs'⟩ := hs s t c
      rw [hs'] at h
      cases h
      exact ⟨_, rfl⟩
    · cases h
  | back t x =>
    simp only [step] at h
    split at h
    · rename_i c m _
      cases h
      exact hs s t _
    · cases h
  | leave t =>
    simp only [step] at h
    split at h <;> cases h
    exact ⟨_, rfl⟩
  | «show» t x =>
    simp only [step] at h
    split at h
    · cases h
      exact hs s t x
    · cases h

theorem run_res {z : Zone} (hz : ∀ x, z x ≠ none) : ∀ (es : List Ev) (s : State) (r : Res State), run z s es = some r → ∃ s', r = .ok s'
  | [], s, r, h => by cases h; exact ⟨s, rfl⟩
  | e :: es, s, r, h => by
    simp only [run] at h
    split at h
    · exact run_res hz es _ r h
    · rename_i x h1
      obtain ⟨s', hs'⟩ := step_res hz h1
      cases hs'
    · cases h

end Rpp.LogTime
