import Verif.Model.PoolEvents
import Verif.Proof.Sched
import Verif.Spec.Sched
import Verif.Proof.PoolLive

namespace Rpp
namespace PoolEv

theorem swapEv_eq (l : List (Option Nat)) (i j : Nat) (x y : Nat) (hi : l[i]? = some (some x))
    (hj : l[j]? = some (some y)) : swapEv l i j = ((l.set i (some y)).set j (some x), []) := by
  have hil := (List.getElem?_eq_some_iff.mp hi).1
  have hjl := (List.getElem?_eq_some_iff.mp hj).1
  unfold swapEv
  dsimp only
  rw [hi]
  by_cases e : i = j
  · subst e
    have hxy : x = y := by rw [hi] at hj; simpa using hj
    subst hxy
    simp [List.getElem?_set, hil]
  · have e1 : (l.set i none)[i]? = some none := by simp [List.getElem?_set, hil]
    have e2 : (l.set i none)[j]? = some (some y) := by rw [List.getElem?_set_ne e]; exact hj
    rw [e1, e2]
    simp [List.getElem?_set, hjl, List.set_set]

theorem swapJob_eq (l : List Nat) (i j : Nat) (x y : Nat) (hi : l[i]? = some x) (hj : l[j]? = some y) :
    swapJob l i j = (l.set i y).set j x := by
  unfold swapJob; rw [hi, hj]

/-- What is left after the element at `k` is swapped to the end and popped. -/
theorem swap_pop {α : Type} (l : List α) (k : Nat) (x y : α) (hx : l[k]? = some x)
    (hy : l[l.length - 1]? = some y) :
    ((l.set k y).set (l.length - 1) x).getLast? = some x ∧
      l.Perm (x :: ((l.set k y).set (l.length - 1) x).dropLast) := by
  have hk := (List.getElem?_eq_some_iff.mp hx).1
  have hne : l ≠ [] := by rintro rfl; simp at hk
  obtain ⟨r, z, rfl⟩ : ∃ r z, l = r ++ [z] := ⟨l.dropLast, l.getLast hne, (List.dropLast_concat_getLast hne).symm⟩
  have hl : (r ++ [z]).length - 1 = r.length := by simp
  rw [hl] at hy ⊢
  have hz : z = y := by simpa using hy
  subst hz
  by_cases c : k = r.length
  · subst c
    have : z = x := by simpa using hx
    subst this
    simp [List.set_append]
  · have hkr : k < r.length := by simp at hk; omega
    have e1 : (r ++ [z]).set k z = r.set k z ++ [z] := by rw [List.set_append, if_pos hkr]
    rw [e1]
    have e2 : (r.set k z ++ [z]).set r.length x = r.set k z ++ [x] := by
      rw [List.set_append, if_neg (by simp)]; simp
    rw [e2]
    refine ⟨by simp, ?_⟩
    rw [List.dropLast_concat]
    have hrx : r[k]? = some x := by rw [List.getElem?_append_left hkr] at hx; exact hx
    have h1 : r = r.take k ++ x :: r.drop (k + 1) := by
      conv => lhs; rw [← List.take_append_drop k r]
      rw [List.drop_eq_getElem_cons hkr]
      rw [List.getElem?_eq_getElem hkr] at hrx
      rw [Option.some.inj hrx]
    have h2 : r.set k z = r.take k ++ z :: r.drop (k + 1) := by
      rw [List.set_eq_take_append_cons_drop, if_pos hkr]
    rw [h2]
    conv => lhs; rw [h1]
    rw [List.append_assoc, List.cons_append]
    refine List.perm_middle.trans (.cons _ ?_)
    refine List.Perm.append_left _ ?_
    exact List.perm_append_comm.trans (by simp)

/-- The invariant; `ps` are the descriptors in `pending_events` behind the first one. -/
structure Inv (ps : List Nat) (s : St) : Prop where
  pend : s.pend = some 0 :: ps.map some
  len : s.jobs.length = ps.length
  nodup : (0 :: (ps ++ s.add.map Prod.fst)).Nodup
  perm : s.registered.Perm (ps.zip s.jobs ++ s.add ++ s.sched)
  closed : s.closed = s.sched.map Prod.fst
  ready : ∀ fd ∈ s.ready, fd ∈ ps ++ s.add.map Prod.fst
  rnd : s.ready.Nodup
  fires : ∀ fd, (s.sched.map Prod.fst).count fd + s.ready.count fd ≤ s.fires.count fd
  wake : s.phase ≠ .done → (s.add ≠ [] ∨ s.shutdown = true) → 0 < s.wake
  got0 : ∀ fd, s.phase = .got 0 fd → 0 < s.wake
  got : ∀ k fd, s.phase = .got (k + 1) fd → ps[k]? = some fd ∧ fd ∈ s.ready

theorem Inv.open {ps : List Nat} {s : St} (h : Inv ps s) : s.open = 0 :: (ps ++ s.add.map Prod.fst) := by
  unfold St.open
  rw [h.pend]
  simp

theorem init_inv : Inv [] St.init := by
  refine ⟨rfl, rfl, by simp [St.init], .nil, rfl, by simp [St.init], by simp [St.init],
    by simp [St.init], ?_, by simp [St.init], by simp [St.init]⟩
  simp [St.init]

theorem idxOf_map_some (ps : List Nat) (fd : Nat) (h : fd ∈ ps) : ∃ k, ps.idxOf fd = k ∧ ps[k]? = some fd := by
  refine ⟨_, rfl, ?_⟩
  have := List.idxOf_lt_length_iff.mpr h
  rw [List.getElem?_eq_getElem this, List.getElem_idxOf]

theorem step_inv {ps : List Nat} (s : St) (e : Ev) (h : Inv ps s) :
    ∃ s', step s e = .ok s' ∧ ∃ ps', Inv ps' s' := by
  cases e with
  | register fd job =>
    unfold step; dsimp only
    split
    · exact ⟨s, rfl, ps, h⟩
    · rename_i hf
      rw [h.open] at hf
      refine ⟨_, rfl, ps, h.pend, h.len, ?_, ?_, h.closed, ?_, h.rnd, h.fires, ?_, ?_, h.got⟩
      · dsimp only
        rw [List.map_append, ← List.append_assoc, ← List.cons_append]
        refine List.nodup_append.mpr ⟨h.nodup, by simp, ?_⟩
        intro a ha b hb hab
        simp at hb; subst hb; subst hab; exact hf ha
      · dsimp only
        have := h.perm.append_right [(fd, job)]
        refine this.trans ?_
        simp only [List.append_assoc]
        exact List.Perm.append_left _ (List.Perm.append_left _ List.perm_append_comm)
      · intro x hx
        have := h.ready x hx
        simp only [List.map_append, List.mem_append] at this ⊢
        rcases this with c | c
        · exact .inl c
        · exact .inr (.inl c)
      · intro _ _; exact Nat.succ_pos _
      · intro _ _; exact Nat.succ_pos _
  | fire fd =>
    unfold step; dsimp only
    split
    · rename_i hf
      rw [h.open] at hf
      refine ⟨_, rfl, ps, h.pend, h.len, h.nodup, h.perm, h.closed, ?_, ?_, ?_, h.wake, h.got0, ?_⟩
      · intro x hx
        dsimp only at hx
        split at hx
        · exact h.ready x hx
        · rcases List.mem_append.mp hx with c | c
          · exact h.ready x c
          · simp at c; subst c
            rcases List.mem_cons.mp hf.1 with d | d
            · exact absurd d hf.2
            · exact d
      · dsimp only
        split
        · exact h.rnd
        · rename_i hn
          refine List.nodup_append.mpr ⟨h.rnd, by simp, ?_⟩
          intro a ha b hb hab
          simp at hb; subst hb; subst hab; exact hn ha
      · intro x
        have := h.fires x
        dsimp only
        rw [List.count_append]
        split
        · omega
        · rw [List.count_append]; omega
      · intro k x hx
        obtain ⟨a, b⟩ := h.got k x hx
        refine ⟨a, ?_⟩
        dsimp only
        split
        · exact b
        · exact List.mem_append_left _ b
    · exact ⟨s, rfl, ps, h⟩
  | shutdown =>
    unfold step; dsimp only
    refine ⟨_, rfl, ps, h.pend, h.len, h.nodup, h.perm, h.closed, h.ready, h.rnd, h.fires, ?_, ?_, h.got⟩
    · intro _ _; exact Nat.succ_pos _
    · intro _ _; exact Nat.succ_pos _
  | wait fd =>
    unfold step; dsimp only
    split
    · exact ⟨s, rfl, ps, h⟩
    · rename_i hp
      have hp : s.phase = .wait := Classical.not_not.mp hp
      have hnn : ¬ (none ∈ s.pend ∨ ¬ s.pend.Nodup) := by
        rintro (c | c)
        · rw [h.pend] at c; simp at c
        · apply c
          rw [h.pend]
          have : (0 :: ps).Nodup := by
            have := h.nodup
            rw [← List.cons_append] at this
            exact (List.nodup_append.mp this).1
          have := List.Pairwise.map some (S := (· ≠ ·)) (fun a b hab c => hab (Option.some.inj c)) this
          exact this
      rw [if_neg hnn]
      by_cases hc : some fd ∈ s.pend ∧ (if fd = 0 then 0 < s.wake else fd ∈ s.ready)
      · rw [if_pos hc]
        refine ⟨_, rfl, ps, h.pend, h.len, h.nodup, h.perm, h.closed, h.ready, h.rnd, h.fires, ?_, ?_, ?_⟩
        · intro _ d; exact h.wake (by rw [hp]; simp) d
        · intro x hx
          simp only [Phase.got.injEq] at hx
          by_cases c : fd = 0
          · have := hc.2; rw [if_pos c] at this; exact this
          · exfalso
            have h1 := hx.1
            rw [h.pend, List.idxOf_cons] at h1
            have : ((some 0 : Option Nat) == some fd) = false := by simp [Ne.symm c]
            rw [this] at h1; simp at h1
        · intro k x hx
          simp only [Phase.got.injEq] at hx
          obtain ⟨h1, h2⟩ := hx
          subst h2
          have c : fd ≠ 0 := by
            rintro rfl
            rw [h.pend, List.idxOf_cons] at h1; simp at h1
          have hr : fd ∈ s.ready := by have := hc.2; rw [if_neg c] at this; exact this
          refine ⟨?_, hr⟩
          rw [h.pend] at hc h1
          have hm : fd ∈ ps := by
            rcases List.mem_cons.mp hc.1 with d | d
            · exact absurd (Option.some.inj d) c
            · simpa using d
          have hlt := List.idxOf_lt_length_iff.mpr hc.1
          have hg := List.getElem_idxOf hlt
          have hg2 := List.getElem?_eq_getElem hlt
          rw [hg, h1, List.getElem?_cons_succ, List.getElem?_map] at hg2
          cases hq : ps[k]? with
          | none => rw [hq] at hg2; cases hg2
          | some y => rw [hq] at hg2; simpa using hg2
      · rw [if_neg hc]; exact ⟨s, rfl, ps, h⟩
  | body =>
    unfold step; dsimp only
    split
    · rename_i fd hp
      split
      · rename_i hs
        refine ⟨_, rfl, ps, h.pend, h.len, h.nodup, h.perm, h.closed, h.ready, h.rnd, h.fires, ?_, ?_, ?_⟩
        · simp
        · simp
        · simp
      · rename_i hs
        have hw := h.got0 fd hp
        rw [if_neg (by omega)]
        refine ⟨_, rfl, ps ++ s.add.map Prod.fst, ?_, ?_, ?_, ?_, h.closed, ?_, h.rnd, h.fires, ?_, ?_, ?_⟩
        · dsimp only; rw [h.pend]; simp [Function.comp_def]
        · dsimp only; simp [h.len]
        · dsimp only; simpa using h.nodup
        · dsimp only
          rw [List.zip_append h.len.symm]
          have : (s.add.map Prod.fst).zip (s.add.map Prod.snd) = s.add := by
            rw [List.zip_map']; simp
          rw [this]
          simpa using h.perm
        · simpa using h.ready
        · simp [hs]
        · simp
        · simp
    · rename_i k fd hp
      obtain ⟨hk, hr⟩ := h.got k fd hp
      have hkl := (List.getElem?_eq_some_iff.mp hk).1
      obtain ⟨job, hj⟩ : ∃ job, s.jobs[k]? = some job :=
        ⟨_, List.getElem?_eq_getElem (h.len ▸ hkl : k < s.jobs.length)⟩
      rw [hj]; dsimp only
      -- the last ones
      have hpl : s.pend.length = ps.length + 1 := by rw [h.pend]; simp
      have hlast : ∃ y, ps[ps.length - 1]? = some y := ⟨_, List.getElem?_eq_getElem (by omega)⟩
      obtain ⟨y, hy⟩ := hlast
      have hlast2 : ∃ z, s.jobs[s.jobs.length - 1]? = some z :=
        ⟨_, List.getElem?_eq_getElem (by have := h.len; omega)⟩
      obtain ⟨z, hz⟩ := hlast2
      let ps2 := (ps.set k y).set (ps.length - 1) fd
      let js2 := (s.jobs.set k z).set (s.jobs.length - 1) job
      have hr : toBack s.pend s.jobs k = (some 0 :: ps2.map some, ([] : List Nat), js2) := by
        unfold toBack
        split
        · have e1 : s.pend[k + 1]? = some (some fd) := by rw [h.pend]; simp [hk]
          have e2 : s.pend[s.pend.length - 1]? = some (some y) := by
            rw [hpl, h.pend]
            have : ps.length + 1 - 1 = (ps.length - 1) + 1 := by omega
            rw [this]; simp [hy]
          rw [swapEv_eq _ _ _ _ _ e1 e2, swapJob_eq _ _ _ _ _ hj hz]
          have e3 : s.pend.length - 1 = (ps.length - 1) + 1 := by omega
          rw [e3, h.pend]
          simp only [List.set_cons_succ, List.map_set, ps2, js2]
        · have h1 : ps.length = 1 := by omega
          have hk0 : k = 0 := by omega
          subst hk0
          have hl1 := h.len
          obtain ⟨p0, rfl⟩ := List.length_eq_one_iff.mp h1
          obtain ⟨j0, hj0⟩ := List.length_eq_one_iff.mp (hl1.trans h1)
          simp at hk; subst hk
          simp only [hj0] at hj hz ⊢
          simp at hj; subst hj
          simp [ps2, js2, hj0, h.pend]
      have hsp := swap_pop ps k fd y hk hy
      have hsj := swap_pop s.jobs k job z hj hz
      have hpne : ps2 ≠ [] := fun c => by have := congrArg List.length c; simp [ps2] at this; rw [this] at hkl; simp at hkl
      have hjne : js2 ≠ [] := fun c => by
        have := congrArg List.length c; simp [js2] at this; have h3 := h.len; rw [this] at h3; simp at h3; omega
      have hgl : ((some 0 :: ps2.map some).getLast?).join.toList = [fd] := by
        rw [List.getLast?_cons_of_ne_nil (by simpa using hpne), List.getLast?_map]
        have : ps2.getLast? = some fd := hsp.1
        rw [this]; rfl
      have hmem : ∀ x, x ∈ ps2.dropLast ↔ x ∈ ps ∧ x ≠ fd := by
        intro x
        have hnd : ps.Nodup := by
          have := List.nodup_cons.mp h.nodup
          exact (List.nodup_append.mp this.2).1
        have hnd2 := hsp.2.nodup_iff.mp hnd
        rw [hsp.2.mem_iff, List.mem_cons]
        constructor
        · intro c; exact ⟨.inr c, fun d => by rw [d] at c; exact (List.nodup_cons.mp hnd2).1 c⟩
        · rintro ⟨c | c, d⟩
          · exact absurd c d
          · exact c
      refine ⟨_, by rw [hr]; dsimp only; rw [if_neg (by simp [hjne])], ps2.dropLast, ?_, ?_, ?_, ?_, ?_, ?_, ?_, ?_, ?_, ?_, ?_⟩
      all_goals dsimp only
      · rw [List.dropLast_cons_of_ne_nil (by simpa using hpne), List.map_dropLast]
      · simp [ps2, js2, h.len]
      · have hq : (0 :: (ps ++ s.add.map Prod.fst)).Perm (fd :: 0 :: (ps2.dropLast ++ s.add.map Prod.fst)) := by
          refine (List.Perm.cons _ (hsp.2.append_right _)).trans ?_
          exact .swap _ _ _
        exact (List.nodup_cons.mp (hq.nodup_iff.mp h.nodup)).2
      · -- the pairs
        have hzip : (ps.zip s.jobs).Perm ((fd, job) :: ps2.dropLast.zip js2.dropLast) := by
          have e1 : ps2.dropLast.zip js2.dropLast = (ps2.zip js2).dropLast := by
            rw [List.dropLast_eq_take, List.dropLast_eq_take, List.dropLast_eq_take, List.zip_eq_zipWith,
              List.zip_eq_zipWith, List.take_zipWith]
            have : ps2.length = js2.length := by simp [ps2, js2, h.len]
            rw [List.length_zipWith, ← this, Nat.min_self]
          have hz1 : (ps.zip s.jobs)[k]? = some (fd, job) := by rw [List.getElem?_zip_eq_some]; exact ⟨hk, hj⟩
          have hzl : (ps.zip s.jobs).length = ps.length := by rw [List.length_zip, h.len, Nat.min_self]
          have hz2 : (ps.zip s.jobs)[(ps.zip s.jobs).length - 1]? = some (y, z) := by
            rw [List.getElem?_zip_eq_some, hzl]
            rw [h.len] at hz
            exact ⟨hy, hz⟩
          have := (swap_pop (ps.zip s.jobs) k (fd, job) (y, z) hz1 hz2).2
          refine this.trans (.cons _ ?_)
          rw [e1]
          refine List.Perm.of_eq (congrArg List.dropLast ?_)
          have sz : ∀ (a b : List Nat) (i u v : Nat), (a.zip b).set i (u, v) = (a.set i u).zip (b.set i v) := by
            intro a
            induction a with
            | nil => intro b i u v; simp
            | cons p a ih =>
              intro b i u v
              cases b with
              | nil => cases i <;> simp
              | cons q b => cases i with
                | zero => rfl
                | succ i => simp [ih]
          rw [sz, sz, hzl]
          simp only [ps2, js2]
          rw [h.len]
        have := h.perm
        refine this.trans ?_
        refine ((hzip.append_right _).append_right _).trans ?_
        simp only [List.append_assoc, List.cons_append]
        refine (List.perm_append_singleton (fd, job) _).symm.trans ?_
        simp only [List.append_assoc]
        exact .refl _
      · rw [hgl, h.closed]; simp
      · intro x hx
        rw [hgl] at hx
        simp only [List.mem_filter, List.nil_append, List.mem_singleton, decide_eq_true_eq, decide_not,
          Bool.not_eq_true', decide_eq_false_iff_not] at hx
        rcases List.mem_append.mp (h.ready x hx.1) with c | c
        · exact List.mem_append_left _ ((hmem x).mpr ⟨c, hx.2⟩)
        · exact List.mem_append_right _ c
      · exact h.rnd.filter _
      · intro x
        have := h.fires x
        rw [hgl, List.map_append, List.count_append]
        have hcf : (s.ready.filter fun x => decide (x ∉ ([] ++ [fd] : List Nat))).count x + (if x = fd then 1 else 0) ≤
            s.ready.count x := by
          split
          · rename_i c; subst c
            have h1 : (s.ready.filter fun y => decide (y ∉ ([] ++ [x] : List Nat))).count x = 0 := by
              apply List.count_eq_zero.mpr; simp
            rw [h1]
            have := List.count_pos_iff.mpr (by assumption : x ∈ s.ready)
            omega
          · rw [List.count_filter (by simpa using (by assumption : ¬ x = fd))]
            exact Nat.le_refl _
        have e3 : List.count x (List.map Prod.fst [(fd, job)]) = if x = fd then 1 else 0 := by
          rw [List.map_cons, List.map_nil, List.count_singleton]
          by_cases c : x = fd
          · rw [if_pos c, if_pos (by simp [c])]
          · rw [if_neg c, if_neg (by simpa using fun d => c d.symm)]
        rw [e3]
        omega
      · intro _ c
        exact h.wake (by rw [hp]; simp) c
      · simp
      · simp
    · exact ⟨s, rfl, ps, h⟩

/-! ### Progress -/

/-- A step of the event thread. -/
def Own (e : Ev) : Prop := e = .body ∨ ∃ fd, e = .wait fd

/-- The steps of the event thread that are left. -/
def rest (s : St) : Nat :=
  2 * s.ready.length + (if 0 < s.wake then 2 else 0) + (if s.phase = .wait then 1 else 0)

theorem rest_step {ps : List Nat} {s s' : St} {e : Ev} (h : Inv ps s) (hsd : s.shutdown = false) (he : Own e)
    (hs : step s e = .ok s') : s' = s ∨ rest s' < rest s := by
  rcases he with rfl | ⟨fd, rfl⟩
  · unfold step at hs; dsimp only at hs
    split at hs
    · rename_i fd hp
      rw [if_neg (by simp [hsd])] at hs
      have hw := h.got0 fd hp
      rw [if_neg (by omega)] at hs
      cases hs
      right
      unfold rest; dsimp only
      rw [hp, if_pos hw]
      simp
    · rename_i k fd hp
      obtain ⟨hk, hr⟩ := h.got k fd hp
      obtain ⟨s1, h1, ps1, h2⟩ := step_inv s .body h
      have hs2 : step s .body = .ok s' := by unfold step; dsimp only; rw [hp]; exact hs
      rw [h1] at hs2; cases hs2
      -- the descriptor was closed
      have hkey : s'.phase = .wait ∧ s'.wake = s.wake ∧ ∃ c, s'.closed = s.closed ++ c ∧
          s'.ready = s.ready.filter (fun x => x ∉ c) ∧ s'.sched.map Prod.fst = s.sched.map Prod.fst ++ [fd] := by
        split at hs
        · cases hs
        · split at hs
          · cases hs
          · cases hs
            refine ⟨rfl, rfl, _, rfl, rfl, by simp⟩
      obtain ⟨e1, e2, c, e3, e4, e5⟩ := hkey
      have hc : c = [fd] := by
        have := h2.closed
        rw [e3, e5, h.closed] at this
        exact List.append_cancel_left this
      subst hc
      right
      unfold rest
      rw [e1, e2, e4, hp]
      have : (s.ready.filter fun x => decide (x ∉ [fd])).length < s.ready.length := by
        have hle := List.length_filter_le (fun x => decide (x ∉ [fd])) s.ready
        rcases Nat.lt_or_eq_of_le hle with d | d
        · exact d
        · have := List.length_filter_eq_length_iff.mp d fd hr
          simp at this
      simp only [reduceCtorEq, if_false, if_true]
      omega
    · cases hs; exact .inl rfl
  · unfold step at hs; dsimp only at hs
    split at hs
    · cases hs; exact .inl rfl
    · rename_i hp
      split at hs
      · cases hs
      · by_cases hc : some fd ∈ s.pend ∧ (if fd = 0 then 0 < s.wake else fd ∈ s.ready)
        · rw [if_pos hc] at hs
          cases hs
          right; unfold rest; dsimp only
          rw [if_pos (Classical.not_not.mp hp)]
          simp only [reduceCtorEq, if_false]
          omega
        · rw [if_neg hc] at hs; cases hs; exact .inl rfl

theorem shut_step {s s' : St} {e : Ev} (he : Own e) (hsd : s.shutdown = false) (hp : s.phase ≠ .done)
    (hs : step s e = .ok s') : s'.shutdown = false ∧ s'.phase ≠ .done := by
  rcases he with rfl | ⟨fd, rfl⟩
  · unfold step at hs; dsimp only at hs
    split at hs
    · split at hs
      · rename_i c; rw [hsd] at c; cases c
      · split at hs <;> cases hs
        exact ⟨hsd, by simp⟩
    · split at hs
      · cases hs
      · split at hs <;> cases hs
        exact ⟨hsd, by simp⟩
    · cases hs; exact ⟨hsd, hp⟩
  · unfold step at hs; dsimp only at hs
    split at hs
    · cases hs; exact ⟨hsd, hp⟩
    · split at hs
      · cases hs
      · by_cases hc : some fd ∈ s.pend ∧ (if fd = 0 then 0 < s.wake else fd ∈ s.ready)
        · rw [if_pos hc] at hs; cases hs; exact ⟨hsd, by simp⟩
        · rw [if_neg hc] at hs; cases hs; exact ⟨hsd, hp⟩

/-- While something is ready, the event thread can go on. -/
theorem can_step {ps : List Nat} {s : St} (h : Inv ps s) (hsd : s.shutdown = false) (hp : s.phase ≠ .done)
    (hr : s.ready ≠ []) : ∃ e s', Own e ∧ step s e = .ok s' ∧ s' ≠ s := by
  cases hph : s.phase with
  | done => exact absurd hph hp
  | got i fd =>
    obtain ⟨s', h1, ps', h2⟩ := step_inv s .body h
    refine ⟨.body, s', .inl rfl, h1, ?_⟩
    rintro rfl
    have : s'.phase = .wait := by
      unfold step at h1; dsimp only at h1; rw [hph] at h1
      cases i with
      | zero =>
        dsimp only at h1
        rw [if_neg (by simp [hsd])] at h1
        split at h1
        · cases h1
        · have := congrArg St.phase (Except.ok.inj h1); exact this.symm
      | succ k =>
        dsimp only at h1
        split at h1
        · cases h1
        · split at h1
          · cases h1
          · have := congrArg St.phase (Except.ok.inj h1); exact this.symm
    rw [hph] at this; cases this
  | wait =>
    obtain ⟨fd, hfd⟩ := List.exists_mem_of_ne_nil _ hr
    have key : ∀ x, (some x ∈ s.pend ∧ (if x = 0 then 0 < s.wake else x ∈ s.ready)) →
        ∃ e s', Own e ∧ step s e = .ok s' ∧ s' ≠ s := by
      intro x hx
      obtain ⟨s', h1, ps', h2⟩ := step_inv s (.wait x) h
      refine ⟨.wait x, s', .inr ⟨x, rfl⟩, h1, ?_⟩
      rintro rfl
      unfold step at h1; dsimp only at h1
      rw [if_neg (by simp [hph])] at h1
      split at h1
      · cases h1
      · have := congrArg St.phase (Except.ok.inj h1)
        dsimp only at this
        rw [hph] at this; cases this
    rcases List.mem_append.mp (h.ready fd hfd) with c | c
    · refine key fd ⟨by rw [h.pend]; simp [c], ?_⟩
      rw [if_neg]
      · exact hfd
      · rintro rfl
        exact (List.nodup_cons.mp h.nodup).1 (List.mem_append_left _ c)
    · refine key 0 ⟨by rw [h.pend]; simp, ?_⟩
      rw [if_pos rfl]
      refine h.wake hp (.inl ?_)
      intro d; rw [d] at c; simp at c

end PoolEv
end Rpp
