import Verif.Spec.EventFd

/-! # Proofs: descriptors of events -/

namespace Rpp.EvFd

/-- Somebody holds the number. -/
def Held (f : Nat → Option Ev) (n : Nat) : Prop := ∃ v e, f v = some e ∧ e.has n

structure Inv (s : St) : Prop where
  nodup : s.live.Nodup
  enodup : s.ext.Nodup
  live : ∀ n, n ∈ s.live ↔ n ∈ s.ext ∨ Held s.objs n
  ext : ∀ n ∈ s.ext, ∀ v e, s.objs v = some e → ¬ e.has n
  one : ∀ v u e e' n, s.objs v = some e → s.objs u = some e' → e.has n → e'.has n → u = v
  two : ∀ v e n, s.objs v = some e → e.fd = some n → e.sig ≠ some n
  bad : s.bad = []

theorem has_empty (n : Nat) : ¬ Ev.empty.has n := by
  rintro (h | h) <;> cases h

theorem mem_erase {l : List Nat} (h : l.Nodup) {a b : Nat} : a ∈ l.erase b ↔ a ≠ b ∧ a ∈ l := h.mem_erase_iff

theorem held_set (f : Nat → Option Ev) (v : Nat) (x : Option Ev) (n : Nat) :
    Held (set f v x) n ↔ (∃ e, x = some e ∧ e.has n) ∨ ∃ w e, w ≠ v ∧ f w = some e ∧ e.has n := by
  constructor
  · rintro ⟨w, e, h, h'⟩
    by_cases hw : w = v
    · rw [hw, set, if_pos rfl] at h; exact .inl ⟨e, h, h'⟩
    · rw [set, if_neg hw] at h; exact .inr ⟨w, e, hw, h, h'⟩
  · rintro (⟨e, h, h'⟩ | ⟨w, e, hw, h, h'⟩)
    · exact ⟨v, e, by rw [set, if_pos rfl]; exact h, h'⟩
    · exact ⟨w, e, by rw [set, if_neg hw]; exact h, h'⟩

/-- What the others hold is what is held but for this one. -/
theorem held_others {s : St} (h5 : ∀ v u e e' n, s.objs v = some e → s.objs u = some e' → e.has n → e'.has n → u = v)
    (v n : Nat) : (∃ w e, w ≠ v ∧ s.objs w = some e ∧ e.has n) ↔
      Held s.objs n ∧ ∀ e, s.objs v = some e → ¬ e.has n := by
  constructor
  · rintro ⟨w, e, hw, h, h'⟩
    exact ⟨⟨w, e, h, h'⟩, fun e' h1 h2 => hw (h5 v w e' e n h1 h h2 h')⟩
  · rintro ⟨⟨w, e, h, h'⟩, hn⟩
    exact ⟨w, e, fun hw => hn e (hw ▸ h) h', h, h'⟩

theorem held_new {f : Nat → Option Ev} {v : Nat} (hv : f v = none) (x : Ev) (n : Nat) :
    Held (set f v (some x)) n ↔ x.has n ∨ Held f n := by
  rw [held_set]
  constructor
  · rintro (⟨e, h, h'⟩ | ⟨w, e, _, h, h'⟩)
    · cases h; exact .inl h'
    · exact .inr ⟨w, e, h, h'⟩
  · rintro (h | ⟨w, e, h, h'⟩)
    · exact .inl ⟨x, rfl, h⟩
    · exact .inr ⟨w, e, (fun hw => by rw [hw, hv] at h; cases h), h, h'⟩

theorem held_clear {s : St} (h5 : ∀ v u e e' n, s.objs v = some e → s.objs u = some e' → e.has n → e'.has n → u = v)
    {v : Nat} {old : Ev} (hv : s.objs v = some old) {x : Option Ev} (hx : x = none ∨ x = some .empty) (n : Nat) :
    Held (set s.objs v x) n ↔ Held s.objs n ∧ ¬ old.has n := by
  rw [held_set, held_others h5]
  constructor
  · rintro (⟨e, h, h'⟩ | ⟨h, h'⟩)
    · rcases hx with rfl | rfl
      · cases h
      · cases h; exact absurd h' (has_empty n)
    · exact ⟨h, h' old hv⟩
  · rintro ⟨h, h'⟩
    exact .inr ⟨h, fun e he => by rw [hv] at he; cases he; exact h'⟩

/-- Taking over from `u`. -/
theorem held_take {f : Nat → Option Ev} {v u : Nat} {e : Ev} (hne : u ≠ v) (hv : f v = none ∨ f v = some .empty)
    (hu : f u = some e) (n : Nat) : Held (set (set f v (some e)) u (some .empty)) n ↔ Held f n := by
  constructor
  · rintro ⟨w, e', h, h'⟩
    by_cases hw : w = u
    · rw [hw, set, if_pos rfl] at h; cases h; exact absurd h' (has_empty n)
    · rw [set, if_neg hw, set] at h
      by_cases hw' : w = v
      · rw [if_pos hw'] at h; cases h; exact ⟨u, e, hu, h'⟩
      · rw [if_neg hw'] at h; exact ⟨w, e', h, h'⟩
  · rintro ⟨w, e', h, h'⟩
    by_cases hw : w = u
    · rw [hw, hu] at h; cases h
      exact ⟨v, e, by rw [set, if_neg hne.symm, set, if_pos rfl], h'⟩
    · by_cases hw' : w = v
      · rcases hv with hv | hv
        · rw [hw', hv] at h; cases h
        · rw [hw', hv] at h; cases h; exact absurd h' (has_empty n)
      · exact ⟨w, e', by rw [set, if_neg hw, set, if_neg hw']; exact h, h'⟩

theorem closeNum_ok (y : Sys) {s : St} {n : Nat} (h : n ∈ s.live) :
    closeNum y s n = .ok { s with live := s.live.erase n, ext := s.ext.erase n } := if_pos h

/-- Emptying an event that holds only open numbers. -/
theorem destroy_ok (y : Sys) {s : St} (hs : Inv s) {v : Nat} {e : Ev} (hv : s.objs v = some e) :
    ∃ s', destroy y s e = .ok s' ∧ s'.objs = s.objs ∧ s'.bad = [] ∧ s'.live.Nodup ∧ s'.ext.Nodup ∧
      (∀ n, n ∈ s'.live ↔ n ∈ s.live ∧ ¬ e.has n) ∧ (∀ n, n ∈ s'.ext ↔ n ∈ s.ext) := by
  have hl : ∀ n, e.has n → n ∈ s.live := fun n h => (hs.live n).2 (.inr ⟨v, e, hv, h⟩)
  have hx : ∀ n, e.has n → n ∉ s.ext := fun n h h' => hs.ext n h' v e hv h
  have h2 := hs.two v e
  obtain ⟨fd, sig⟩ := e
  cases fd with
  | none =>
    cases sig with
    | none => exact ⟨s, rfl, rfl, hs.bad, hs.nodup, hs.enodup, fun n => by simp [Ev.has], fun n => Iff.rfl⟩
    | some m =>
      refine ⟨_, closeNum_ok y (hl m (.inr rfl)), rfl, hs.bad, hs.nodup.erase _, hs.enodup.erase _, fun n => ?_, fun n => ?_⟩
      · simp only [mem_erase hs.nodup, Ev.has]; grind
      · simp only [mem_erase hs.enodup]; have := hx m (.inr rfl); grind
  | some k =>
    have hk := hl k (.inl rfl)
    have hkx := hx k (.inl rfl)
    cases sig with
    | none =>
      refine ⟨{ s with live := s.live.erase k, ext := s.ext.erase k }, ?_, rfl, hs.bad, hs.nodup.erase k, hs.enodup.erase k, fun n => ?_, fun n => ?_⟩
      · show (closeNum y s k >>= fun s => closeOpt y s none) = _
        rw [closeNum_ok y hk]; rfl
      · simp only [mem_erase hs.nodup, Ev.has]; grind
      · simp only [mem_erase hs.enodup]; grind
    | some m =>
      have hm := hl m (.inr rfl)
      have hmx := hx m (.inr rfl)
      have hne : m ≠ k := fun h => h2 k hv rfl (by rw [h])
      have hm' : m ∈ s.live.erase k := (mem_erase hs.nodup).2 ⟨hne, hm⟩
      refine ⟨{ s with live := (s.live.erase k).erase m, ext := (s.ext.erase k).erase m }, ?_, rfl, hs.bad, (hs.nodup.erase k).erase m, (hs.enodup.erase k).erase m, fun n => ?_, fun n => ?_⟩
      · show (closeNum y s k >>= fun s => closeNum y s m) = _
        rw [closeNum_ok y hk]
        exact closeNum_ok y hm'
      · simp only [mem_erase hs.nodup, mem_erase (hs.nodup.erase k), Ev.has]; grind
      · simp only [mem_erase hs.enodup, mem_erase (hs.enodup.erase k)]; grind

/-- `of_sys` is given a descriptor that the rest of the program holds. -/
def Fair (s : St) : Op → Prop
  | .ofSys v n => s.objs v = none → n ∈ s.ext
  | _ => True

theorem step_ok (y : Sys) {s : St} (hs : Inv s) (o : Op) (hf : Fair s o) : ∃ s', step y s o = .ok s' ∧ Inv s' := by
  obtain ⟨h1, h2, h3, h4, h5, h6, h7⟩ := id hs
  have h8 : ∀ w e k, s.objs w = some e → e.has k → k ∈ s.live := fun w e k h h' => (h3 k).2 (.inr ⟨w, e, h, h'⟩)
  have h10 : ∀ k, k ∈ s.ext → ¬ Held s.objs k := fun k h ⟨w, e, hw, h'⟩ => h4 k h w e hw h'
  have h9 : ∀ k, k ∈ s.ext → k ∈ s.live := fun k h => (h3 k).2 (.inl h)
  cases o with
  | make v n m =>
    unfold step
    dsimp only
    split
    · exact ⟨s, rfl, hs⟩
    · rename_i hv
      by_cases hn : n ∈ s.live
      · rw [if_pos hn]; exact ⟨s, rfl, hs⟩
      rw [if_neg hn]
      by_cases hy : y = .mac
      · rw [if_pos hy]
        by_cases hm : m ∈ s.live ∨ m = n
        · rw [if_pos hm]; exact ⟨s, rfl, hs⟩
        rw [if_neg hm]
        refine ⟨_, rfl, ?_⟩
        constructor
        case live =>
          intro k
          have := h3 k
          dsimp only
          rw [held_new hv]
          simp only [Ev.has, List.mem_cons] at *
          grind
        all_goals (dsimp only [set, Ev.has] at *; grind)
      · rw [if_neg hy]
        refine ⟨_, rfl, ?_⟩
        constructor
        case live =>
          intro k
          have := h3 k
          dsimp only
          rw [held_new hv]
          simp only [Ev.has, List.mem_cons] at *
          grind
        all_goals (dsimp only [set, Ev.has] at *; grind)
  | ofSys v n =>
    unfold step
    dsimp only
    split
    · exact ⟨s, rfl, hs⟩
    · rename_i hv
      have hx := hf hv
      refine ⟨_, rfl, ?_⟩
      have he := fun a => @mem_erase _ h2 a n
      have := h2.erase n
      constructor
      case live =>
        intro k
        have := h3 k
        dsimp only
        rw [held_new hv]
        simp only [Ev.has] at *
        grind
      all_goals (dsimp only [set, Ev.has] at *; grind)
  | moveNew v u =>
    unfold step
    dsimp only
    split
    · rename_i e hv hu
      refine ⟨_, rfl, ?_⟩
      have hne : u ≠ v := fun h => by rw [← h, hu] at hv; cases hv
      constructor
      case live =>
        intro k
        dsimp only
        rw [held_take hne (.inl hv) hu]
        exact h3 k
      all_goals (dsimp only [set, Ev.has, Ev.empty] at *; grind)
    · exact ⟨s, rfl, hs⟩
  | assign v u =>
    unfold step
    dsimp only
    split
    · rename_i old e hv hu
      obtain ⟨s', hd, ho, hb, hl, hx, hm, hxm⟩ := destroy_ok y hs hv
      rw [hd]
      by_cases hvu : u = v
      · subst hvu
        refine ⟨{ s' with objs := set (set (set s'.objs u (some .empty)) u (some .empty)) u (some .empty) }, ?_, ?_⟩
        · show (match set s'.objs u (some .empty) u with | some e => _ | none => _) = _
          have : set s'.objs u (some .empty) u = some .empty := if_pos rfl
          rw [this]
        · have hss : set (set (set s'.objs u (some .empty)) u (some .empty)) u (some .empty) = set s.objs u (some .empty) := by
            funext w; unfold set; rw [ho]; grind
          rw [hss]
          constructor
          case live =>
            intro k
            dsimp only
            rw [held_clear h5 hv (.inr rfl), hm, hxm, h3 k]
            have := h4 k
            grind
          all_goals (dsimp only [set, Ev.has, Ev.empty] at *; grind)
      · refine ⟨{ s' with objs := set (set (set s'.objs v (some .empty)) v (some e)) u (some .empty) }, ?_, ?_⟩
        · show (match set s'.objs v (some .empty) u with | some e => _ | none => _) = _
          have : set s'.objs v (some .empty) u = some e := by rw [set, if_neg hvu, ho, hu]
          rw [this]
        · rw [ho]
          constructor
          case live =>
            intro k
            dsimp only
            rw [held_take hvu (.inr (if_pos rfl)) (by rw [set, if_neg hvu]; exact hu), held_clear h5 hv (.inr rfl), hm, hxm,
              h3 k]
            have := h4 k
            grind
          all_goals (dsimp only [set, Ev.has, Ev.empty] at *; grind)
    · exact ⟨s, rfl, hs⟩
  | drop v =>
    unfold step
    dsimp only
    split
    · rename_i old hv
      obtain ⟨s', hd, ho, hb, hl, hx, hm, hxm⟩ := destroy_ok y hs hv
      rw [hd]
      refine ⟨_, rfl, ?_⟩
      rw [ho]
      constructor
      case live =>
        intro k
        dsimp only
        rw [held_clear h5 hv (.inl rfl), hm, hxm, h3 k]
        have := h4 k
        grind
      all_goals (dsimp only [set, Ev.has, Ev.empty] at *; grind)
    · exact ⟨s, rfl, hs⟩
  | «open» n =>
    unfold step
    dsimp only
    split
    · exact ⟨s, rfl, hs⟩
    · refine ⟨_, rfl, ?_⟩
      constructor <;> dsimp only [Ev.has] at * <;> grind
  | close n =>
    unfold step
    dsimp only
    split
    · refine ⟨_, rfl, ?_⟩
      have he := fun a => @mem_erase _ h2 a n
      have he' := fun a => @mem_erase _ h1 a n
      have := h2.erase n
      have := h1.erase n
      constructor <;> dsimp only [Ev.has] at * <;> grind
    · exact ⟨s, rfl, hs⟩

theorem runFrom_ok (y : Sys) : ∀ (ops : List Op) (s : St), Inv s →
    (∀ pre v n post t, ops = pre ++ .ofSys v n :: post → runFrom y s pre = .ok t → t.objs v = none → n ∈ t.ext) →
    ∃ s', runFrom y s ops = .ok s' ∧ Inv s'
  | [], s, hs, _ => ⟨s, rfl, hs⟩
  | o :: os, s, hs, hf => by
    have hf0 : Fair s o := by
      cases o <;> try trivial
      exact fun hv => hf [] _ _ os s rfl rfl hv
    obtain ⟨t, ht, hi⟩ := step_ok y hs o hf0
    obtain ⟨s', hr, hi'⟩ := runFrom_ok y os t hi (fun pre v n post t' he hr hv => by
      refine hf (o :: pre) v n post t' (by rw [he]; rfl) ?_ hv
      rw [runFrom, ht]
      exact hr)
    refine ⟨s', ?_, hi'⟩
    rw [runFrom, ht]
    exact hr

theorem runFrom_append (y : Sys) : ∀ (ops os : List Op) (s t : St), runFrom y s ops = .ok t →
    runFrom y s (ops ++ os) = runFrom y t os
  | [], _, s, t, h => by cases h; rfl
  | o :: ops, os, s, t, h => by
    rw [List.cons_append, runFrom]
    rw [runFrom] at h
    cases hs : step y s o with
    | error e => rw [hs] at h; cases h
    | ok s' => rw [hs] at h; exact runFrom_append y ops os s' t h

/-- An operation leaves alone what the rest of the program holds. -/
theorem step_ext (y : Sys) {s s' : St} (hs : Inv s) {o : Op} (hr : step y s o = .ok s') {n : Nat} (hn : n ∈ s.ext)
    (h1 : o ≠ .close n) (h2 : ∀ v, o ≠ .ofSys v n) : n ∈ s'.ext := by
  cases o with
  | make v a b =>
    unfold step at hr; dsimp only at hr
    repeat' split at hr
    all_goals cases hr; exact hn
  | ofSys v m =>
    unfold step at hr; dsimp only at hr
    split at hr
    · cases hr; exact hn
    · cases hr
      exact (mem_erase hs.enodup).2 ⟨fun h => h2 v (by rw [h]), hn⟩
  | moveNew v u =>
    unfold step at hr; dsimp only at hr
    split at hr <;> cases hr <;> exact hn
  | assign v u =>
    unfold step at hr; dsimp only at hr
    split at hr
    · rename_i old e hv hu
      obtain ⟨t, hd, ho, hb, hl, hx, hm, hxm⟩ := destroy_ok y hs hv
      rw [hd] at hr
      have hr' : (match set t.objs v (some .empty) u with
        | some e => (.ok { t with objs := set (set (set t.objs v (some .empty)) v (some e)) u (some .empty) } : Res St)
        | none => .ok { t with objs := set t.objs v (some .empty) }) = .ok s' := hr
      split at hr' <;> cases hr' <;> exact (hxm n).2 hn
    · cases hr; exact hn
  | drop v =>
    unfold step at hr; dsimp only at hr
    split at hr
    · rename_i old hv
      obtain ⟨t, hd, ho, hb, hl, hx, hm, hxm⟩ := destroy_ok y hs hv
      rw [hd] at hr
      cases hr
      exact (hxm n).2 hn
    · cases hr; exact hn
  | «open» m =>
    unfold step at hr; dsimp only at hr
    split at hr
    · cases hr; exact hn
    · cases hr; exact List.mem_cons_of_mem _ hn
  | close m =>
    unfold step at hr; dsimp only at hr
    split at hr
    · cases hr
      exact (mem_erase hs.enodup).2 ⟨fun h => h1 (by rw [h]), hn⟩
    · cases hr; exact hn

theorem init_inv : Inv St.init := by
  constructor <;> simp [St.init, Held]

theorem others_kept (y : Sys) (ops : List Op) (o : Op) (h : Handed y (ops ++ [o])) {s : St} (hr : run y ops = .ok s)
    {n : Nat} (hn : n ∈ s.ext) (h1 : o ≠ .close n) (h2 : ∀ v, o ≠ .ofSys v n) :
    ∃ s', run y (ops ++ [o]) = .ok s' ∧ n ∈ s'.ext ∧ n ∈ s'.live := by
  obtain ⟨s0, hr0, hi⟩ := runFrom_ok y ops St.init init_inv (fun pre v n post t he =>
    h pre v n (post ++ [o]) t (by rw [he, List.append_assoc, List.cons_append]))
  cases hr0.symm.trans hr
  obtain ⟨s', hr', hi'⟩ := runFrom_ok y (ops ++ [o]) St.init init_inv h
  have hs : runFrom y s [o] = .ok s' := (runFrom_append y ops [o] _ s hr).symm.trans hr'
  have hs' : step y s o = .ok s' := by
    rw [runFrom] at hs
    cases ho : step y s o with
    | error e => rw [ho] at hs; cases hs
    | ok t => rw [ho] at hs; cases hs; rfl
  have hx := step_ext y hi hs' hn h1 h2
  exact ⟨s', hr', hx, (hi'.live n).2 (.inl hx)⟩

end Rpp.EvFd
