import Verif.Proof.NestedEnv

/-!
# Proofs: what a program with nested containers shows
-/

namespace Rpp.Nested
open Rpp

theorem mapM_some {α β : Type} {g : α → Option β} : ∀ {l : List α} {r : List β}, l.length = r.length →
    (∀ (i : Nat) a b, l[i]? = some a → r[i]? = some b → g a = some b) → l.mapM g = some r
  | [], [], _, _ => by simp
  | a :: l, b :: r, hl, h => by
    rw [List.mapM_cons, h 0 a b rfl rfl, mapM_some (by simpa using hl) (fun i x y hx hy => h (i + 1) x y (by simpa using hx) (by simpa using hy))]
    rfl
  | [], _ :: _, hl, _ => by simp at hl
  | _ :: _, [], hl, _ => by simp at hl

theorem flat_congr {F G : Nat → List Nat} : ∀ {l : List Nat}, (∀ i ∈ l, F i = G i) → l.flatMap F = l.flatMap G
  | [], _ => rfl
  | a :: l, h => by
    rw [List.flatMap_cons, List.flatMap_cons, h a List.mem_cons_self, flat_congr (fun i hi => h i (List.mem_cons_of_mem _ hi))]

theorem rep_value {m : Mem} : ∀ {t : Ty} {l : Loc} {T : Tree} {f : List Nat}, Rep m.obj t l T f → value m t l = some T := by
  intro t
  induction t with
  | num =>
    rintro l T f ⟨_, n, h2, h3⟩
    simp only [value, h3, h2]
  | vec t ih =>
    rintro l T f ⟨ts, d, cap, rfl, h2, h3, h4⟩
    unfold value
    rw [h2]
    rcases h4 with ⟨e1, e2, _⟩ | ⟨b, F, e1, e2, e3, e4⟩
    · have hts : ts = [] := List.eq_nil_of_length_eq_zero (by omega)
      subst hts e1
      rfl
    · subst e1
      cases ts with
      | nil => rfl
      | cons T0 ts =>
        have : ((List.range (T0 :: ts).length).mapM fun i => value m t ⟨b, [.elem i]⟩) = some (T0 :: ts) := by
          refine mapM_some (by simp) (fun i a x ha hx => ?_)
          have hi := (List.getElem?_eq_some_iff.1 hx).1
          rw [List.getElem?_range hi] at ha
          cases ha
          exact ih (e4 i x hx)
        simp only [List.length_cons] at this ⊢
        rw [this]
        rfl
  | box t ih =>
    intro l T f h
    rcases h with ⟨h1, h2, _⟩ | ⟨T', b, g, h1, h2, _, h4⟩
    · simp only [value, h2, h1]
    · simp only [value, h2, ih h4, h1, Option.map]
  | opt t ih =>
    intro l T f h
    rcases h with ⟨h1, h2, _⟩ | ⟨T', h1, h2, h4⟩
    · simp only [value, h2, h1]
    · simp only [value, h2, ih h4, h1, Option.map]
  | pair a b iha ihb =>
    rintro l T f ⟨x, y, g, h, e1, _, e3, e4⟩
    simp only [value, iha e3, ihb e4, e1]
    rfl

theorem rep_owned {m : Mem} : ∀ {t : Ty} {l : Loc} {T : Tree} {f : List Nat}, Rep m.obj t l T f → owned m t l = f := by
  intro t
  induction t with
  | num => rintro l T f ⟨h, _⟩; simp only [owned, h]
  | vec t ih =>
    rintro l T f ⟨ts, d, cap, rfl, h2, h3, h4⟩
    unfold owned
    rw [h2]
    rcases h4 with ⟨e1, e2, e3⟩ | ⟨b, F, e1, e2, e3, e4⟩
    · subst e1 e3; rfl
    · subst e1
      rw [e3]
      dsimp only
      rw [List.range_eq_range']
      congr 1
      refine flat_congr (fun i hi => ?_)
      have hi' : i < ts.length := by simpa [List.mem_range'] using hi
      exact ih (e4 i ts[i] (List.getElem?_eq_getElem hi'))
  | box t ih =>
    intro l T f h
    rcases h with ⟨h1, h2, h3⟩ | ⟨T', b, g, h1, h2, h3, h4⟩
    · simp only [owned, h2, h3]
    · simp only [owned, h2, ih h4, h3]
  | opt t ih =>
    intro l T f h
    rcases h with ⟨h1, h2, h3⟩ | ⟨T', h1, h2, h4⟩
    · simp only [owned, h2, h3]
    · simp only [owned, h2, ih h4]
  | pair a b iha ihb =>
    rintro l T f ⟨x, y, g, h, _, e2, e3, e4⟩
    simp only [owned, iha e3, ihb e4, e2]

theorem flat_list {α : Type} {G : α → List Nat} : ∀ (vs : List α) (F : Nat → List Nat) (a : Nat), (∀ i v, vs[i]? = some v → F (a + i) = G v) →
    (List.range' a vs.length).flatMap F = vs.flatMap G
  | [], _, _, _ => rfl
  | v :: vs, F, a, h => by
    rw [List.length_cons, List.range'_succ, List.flatMap_cons, List.flatMap_cons, show F a = G v from h 0 v rfl,
      flat_list vs F (a + 1) (fun i w hw => by rw [Nat.add_right_comm]; exact h (i + 1) w (by simpa using hw))]

theorem get_die {m : World} {e : Err} : ∀ (p : List Acc) {t t' : Ty} {l : Loc} {T : Tree} {f : List Nat}, Rep m t l T f → t.at p = some t' →
    T.get p = .error e → e = .die
  | [], _, _, _, _, _, _, _, h => by simp [Tree.get] at h
  | a :: p, t, t', l, T, f, hr, ht, h => by
    cases t with
    | num => cases a <;> simp [Ty.at] at ht
    | vec t =>
      cases a with
      | idx i =>
        obtain ⟨ts, d, cap, rfl, h2, h3, h4⟩ := hr
        simp only [Tree.get] at h
        simp only [Ty.at] at ht
        cases hi : ts[i]? with
        | none => rw [hi] at h; cases h; rfl
        | some U =>
          rw [hi] at h
          rcases h4 with ⟨_, e2, _⟩ | ⟨b, F, e1, e2, e3, e4⟩
          · have := (List.getElem?_eq_some_iff.1 hi).1
            omega
          · exact get_die p (e4 i U hi) ht h
      | _ => simp [Ty.at] at ht
    | box t =>
      cases a with
      | deref =>
        simp only [Ty.at] at ht
        rcases hr with ⟨rfl, _⟩ | ⟨T', b, g, rfl, _, _, h4⟩
        · simp [Tree.get] at h; exact h.symm
        · exact get_die p h4 ht (by simpa [Tree.get] using h)
      | _ => simp [Ty.at] at ht
    | opt t =>
      cases a with
      | val =>
        simp only [Ty.at] at ht
        rcases hr with ⟨rfl, _⟩ | ⟨T', rfl, _, h4⟩
        · simp [Tree.get] at h; exact h.symm
        · exact get_die p h4 ht (by simpa [Tree.get] using h)
      | _ => simp [Ty.at] at ht
    | pair x y =>
      obtain ⟨A, B, g, g', rfl, _, e3, e4⟩ := hr
      cases a with
      | fst => exact get_die p e3 (by simpa [Ty.at] using ht) (by simpa [Tree.get] using h)
      | snd => exact get_die p e4 (by simpa [Ty.at] using ht) (by simpa [Tree.get] using h)
      | _ => simp [Ty.at] at ht

theorem look_die {s : St} {σ : Vals} {p : Place} {t : Ty} {e : Err} (h : Inv s σ) (ht : typeOf σ p = some t) (he : look σ p = .error e) : e = .die := by
  obtain ⟨f, hv, hp, hn, _⟩ := h
  rw [typeOf_eq hv] at ht
  obtain ⟨t0, b, h1, h2⟩ := typeOf_some ht
  obtain ⟨T, g, C, e1, e2⟩ := env_foc hv (hp.nodup_iff.1 hn) h1
  simp only [look, e1] at he
  exact get_die p.path e2.rep h2 he

theorem look_vec {s : St} {σ : Vals} {p : Place} {t : Ty} {T : Tree} (h : Inv s σ) (ht : typeOf σ p = some (.vec t)) (he : look σ p = .ok T) :
    ∃ l, T = .vec l := by
  obtain ⟨f, hv, hp, hn, _⟩ := h
  rw [typeOf_eq hv] at ht
  obtain ⟨K, f', C, _, e2⟩ := (place_foc hv (hp.nodup_iff.1 hn) (fun b hb => hp.mem_iff.2 hb) ht).2 T he
  obtain ⟨ts, _, _, h, _⟩ := e2.rep
  exact ⟨ts, h⟩

theorem valStep_die {s : St} {σ : Vals} {op : Op} {e : Err} (h : Inv s σ) (he : valStep σ op = .error e) : e = .die := by
  cases op with
  | decl t => simp [valStep] at he
  | leave x => simp [valStep] at he
  | num p n =>
    simp only [valStep] at he
    split at he
    · rename_i ht
      cases hg : look σ p with
      | error e' => rw [hg] at he; cases he; exact look_die h ht hg
      | ok T => rw [hg] at he; cases he
    · cases he
  | give k p q =>
    simp only [valStep] at he
    split at he
    · rename_i t hq
      split at he
      · rename_i ht
        cases hg : look σ p with
        | error e' => rw [hg] at he; cases he; exact look_die h ht hg
        | ok T =>
          cases hg' : look σ q with
          | error e' => rw [hg, hg'] at he; cases he; exact look_die h hq hg'
          | ok U =>
            rw [hg, hg'] at he
            simp only [bind, Except.bind, pure, Except.pure] at he
            split at he <;> cases he
      · cases he
    · cases he
  | clone p q =>
    simp only [valStep] at he
    split at he
    · rename_i t hq
      split at he
      · rename_i ht
        cases hg : look σ p with
        | error e' => rw [hg] at he; cases he; exact look_die h ht hg
        | ok T =>
          cases hg' : look σ q with
          | error e' => rw [hg, hg'] at he; cases he; exact look_die h hq hg'
          | ok U => rw [hg, hg'] at he; cases he
      · cases he
    · cases he
  | pop p =>
    simp only [valStep] at he
    split at he
    · rename_i t ht
      cases hg : look σ p with
      | error e' => rw [hg] at he; cases he; exact look_die h ht hg
      | ok T =>
        obtain ⟨l, rfl⟩ := look_vec h ht hg
        rw [hg] at he
        simp only [bind, Except.bind, pure, Except.pure] at he
        split at he
        · cases he; rfl
        · cases he
    · cases he
  | clear p =>
    simp only [valStep] at he
    split at he
    · rename_i t ht
      cases hg : look σ p with
      | error e' => rw [hg] at he; cases he; exact look_die h ht hg
      | ok T => rw [hg] at he; cases he
    · cases he

theorem run_ok : ∀ (ops : List Op) {s : St} {σ : Vals}, Inv s σ → (∀ op ∈ ops, op.legal) →
    (∀ e, valRun σ ops = .error e → run s ops = .error e ∧ e = .die) ∧ ∀ σ', valRun σ ops = .ok σ' → ∃ s', run s ops = .ok s' ∧ Inv s' σ'
  | [], s, σ, h, _ => ⟨fun e he => (by cases he), fun σ' he => (by cases he; exact ⟨s, rfl, h⟩)⟩
  | op :: ops, s, σ, h, hl => by
    obtain ⟨a, b⟩ := step_ok h (hl op List.mem_cons_self)
    simp only [valRun, run]
    cases hs : valStep σ op with
    | error e =>
      rw [a e hs]
      exact ⟨fun e' he => (by cases he; exact ⟨rfl, valStep_die h hs⟩), fun σ' he => (by cases he)⟩
    | ok σ1 =>
      obtain ⟨s1, r1, r2⟩ := b σ1 hs
      rw [r1]
      exact run_ok ops r2 (fun o ho => hl o (List.mem_cons_of_mem _ ho))

theorem valRun_append : ∀ (a b : List Op) (σ : Vals), valRun σ (a ++ b) = valRun σ a >>= fun σ => valRun σ b
  | [], _, _ => rfl
  | op :: a, b, σ => by
    simp only [List.cons_append, valRun]
    cases valStep σ op with
    | error e => rfl
    | ok σ1 => exact valRun_append a b σ1

/-- Leaving the scopes of variables. -/
theorem leave_all : ∀ (n a : Nat) (σ : Vals), a + n = σ.length → (∀ x, x < a → σ[x]? = some none) →
    ∃ σ', valRun σ ((List.range' a n).map .leave) = .ok σ' ∧ ∀ v ∈ σ', v = none
  | 0, a, σ, hl, h => by
    refine ⟨σ, rfl, fun v hv => ?_⟩
    obtain ⟨i, hi, rfl⟩ := List.getElem_of_mem hv
    have := h i (by omega)
    rw [List.getElem?_eq_getElem hi] at this
    exact Option.some.inj this
  | n + 1, a, σ, hl, h => by
    obtain ⟨σ', e1, e2⟩ := leave_all n (a + 1) (σ.set a none) (by simp; omega) (fun x hx => by
      by_cases hxa : x = a
      · subst hxa; exact List.getElem?_set_self (by omega)
      · rw [List.getElem?_set_ne (Ne.symm hxa)]; exact h x (by omega))
    exact ⟨σ', by rw [List.range'_succ]; exact e1, e2⟩

/-- The blocks of a variable. -/
theorem inv_owned {s : St} {σ : Vals} (h : Inv s σ) : s.mem.live.Perm (s.vars.flatMap (varBlocks s.mem)) ∧ s.mem.live.Nodup := by
  obtain ⟨f, ⟨h1, F, h2, h3⟩, hp, hn, _⟩ := h
  refine ⟨?_, hn⟩
  rw [h2] at hp
  rw [flat_list s.vars F 0 (G := varBlocks s.mem) (fun i v hv => ?_)] at hp
  · exact hp
  · have hi := (List.getElem?_eq_some_iff.1 hv).1
    rw [Nat.zero_add]
    rcases h3 i hi with ⟨a, _, c⟩ | ⟨t, b, T, g, a, _, c, d⟩
    · rw [hv] at a; cases a; exact c
    · rw [hv] at a; cases a; rw [c]; simp only [varBlocks, rep_owned d]

theorem inv_values {s : St} {σ : Vals} (h : Inv s σ) : s.vars.length = σ.length ∧ ∀ x : Nat, (σ[x]? = some none → s.vars[x]? = some none) ∧
    ∀ t T, σ[x]? = some (some (t, T)) → ∃ b, s.vars[x]? = some (some (t, b)) ∧ value s.mem t ⟨b, []⟩ = some T := by
  obtain ⟨f, ⟨h1, F, h2, h3⟩, _⟩ := h
  refine ⟨h1, fun x => ⟨fun hx => ?_, fun t T hx => ?_⟩⟩
  · have hi := (List.getElem?_eq_some_iff.1 hx).1
    rcases h3 x (by omega) with ⟨a, _⟩ | ⟨t, b, T, g, _, a, _⟩
    · exact a
    · rw [hx] at a; cases a
  · have hi := (List.getElem?_eq_some_iff.1 hx).1
    rcases h3 x (by omega) with ⟨_, a, _⟩ | ⟨t', b, T', g, c, a, _, r⟩
    · rw [hx] at a; cases a
    · rw [hx] at a; cases a; exact ⟨b, c, rep_value r⟩

theorem inv_free {s : St} {σ : Vals} (h : Inv s σ) (hσ : ∀ v ∈ σ, v = none) : s.mem.live = [] := by
  have hv := (inv_values h)
  have := (inv_owned h).1
  have he : (s.vars.flatMap (varBlocks s.mem)) = [] := by
    rw [List.flatMap_eq_nil_iff]
    intro v hm
    obtain ⟨i, hi, rfl⟩ := List.getElem_of_mem hm
    have hs : σ[i]? = some none := by rw [List.getElem?_eq_getElem (by omega), hσ _ (List.getElem_mem _)]
    have := (hv.2 i).1 hs
    rw [List.getElem?_eq_getElem hi] at this
    rw [Option.some.inj this]
    rfl
  rw [he] at this
  exact List.perm_nil.1 this

end Rpp.Nested
