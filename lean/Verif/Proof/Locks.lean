import Verif.Spec.Locks
import Verif.Proof.Sched
import Mathlib.Tactic.ByContra

namespace Rpp.Locks

/-- The order of the mutexes. -/
def rank (inner : Nat → Bool) : Lock → Nat
  | .finalizers => 0
  | .own k => if inner k then 8 else 1
  | .range _ => 2
  | .pool _ => 3
  | .threads => 4
  | .frames _ => 5
  | .allocs => 6
  | .log => 7

/-- With the mutexes `h` held, the operations take mutexes in order and release the last one taken. -/
def Nested (i : Nat → Bool) : List Lock → List Op → Prop
  | h, [] => h = []
  | h, .acq l :: r => (∀ k ∈ h, rank i k < rank i l) ∧ Nested i (l :: h) r
  | h, .rel l :: r => ∃ h', h = l :: h' ∧ Nested i h' r

/-- A stretch of operations that leaves as many mutexes held as before. -/
def Fits (i : Nat → Bool) (h : List Lock) (b : List Op) : Prop := ∀ r, Nested i h r → Nested i h (b ++ r)

variable {i : Nat → Bool} {h : List Lock}

theorem Fits.nil : Fits i h [] := fun _ hr => hr

theorem Fits.append {a b : List Op} (ha : Fits i h a) (hb : Fits i h b) : Fits i h (a ++ b) := fun r hr => by
  rw [List.append_assoc]; exact ha _ (hb _ hr)

theorem Fits.flatMap {α : Type} {f : α → List Op} : ∀ {l : List α}, (∀ a ∈ l, Fits i h (f a)) → Fits i h (l.flatMap f)
  | [], _ => Fits.nil
  | a :: l, hl => by
    rw [List.flatMap_cons]
    exact (hl a (.head _)).append (Fits.flatMap fun b hb => hl b (.tail _ hb))

theorem Fits.block {l : Lock} {b : List Op} (hr : ∀ k ∈ h, rank i k < rank i l) (hb : Fits i (l :: h) b) : Fits i h (block l b) :=
  fun r hn => by
    refine ⟨hr, ?_⟩
    show Nested i (l :: h) ((b ++ [.rel l]) ++ r)
    rw [List.append_assoc]
    exact hb _ ⟨h, rfl, hn⟩

/-- All mutexes held are below a rank. -/
def Below (i : Nat → Bool) (h : List Lock) (n : Nat) : Prop := ∀ k ∈ h, rank i k < n

theorem Below.cons {l : Lock} {n : Nat} (hb : Below i h n) (hl : rank i l < n) : Below i (l :: h) n := fun k hk => by
  rcases List.mem_cons.mp hk with rfl | hk
  · exact hl
  · exact hb k hk

theorem Below.mono {a b : Nat} (hb : Below i h a) (hab : a ≤ b) : Below i h b := fun k hk => Nat.lt_of_lt_of_le (hb k hk) hab

theorem fits_log {e : Env} {t : Nat} (ho : e.Ordered i) (hb : Below i h 7) : Fits i h (logOps e t) := by
  refine Fits.block hb (Fits.flatMap fun l hl => ?_)
  obtain ⟨k, rfl, hk⟩ := ho.1 t l hl
  refine Fits.block ?_ Fits.nil
  have : rank i (.own k) = 8 := by simp [rank, hk]
  rw [this]
  exact (hb.mono (by omega)).cons (by simp [rank])

theorem fits_record {e : Env} {t : Nat} (ho : e.Ordered i) (w : Bool) (hb : Below i h 5) : Fits i h (recordOps e t w) := by
  refine Fits.append (Fits.block (hb.mono (by simp [rank])) ?_) (Fits.block hb Fits.nil)
  cases w
  · exact Fits.nil
  · exact fits_log ho ((hb.mono (by omega)).cons (by simp [rank]))

theorem fits_own {k : Nat} (hk : i k = true) (hb : Below i h 8) : Fits i h (block (.own k) []) := by
  refine Fits.block ?_ Fits.nil
  have : rank i (.own k) = 8 := by simp [rank, hk]
  rw [this]
  exact hb

theorem fits_quiet {e : Env} {t : Nat} (ho : e.Ordered i) {a : Act} (ha : Quiet i a) (hb : Below i h 7) :
    Fits i h (actOps e t a) := by
  cases a with
  | own k => exact fits_own ha (hb.mono (by omega))
  | log => exact fits_log ho hb
  | record w => exact ha.elim

theorem fits_inside {e : Env} {t : Nat} (ho : e.Ordered i) {a : Act} (ha : Inside i a) (hb : Below i h 5) :
    Fits i h (actOps e t a) := by
  cases a with
  | own k => exact fits_own ha (hb.mono (by omega))
  | log => exact fits_log ho (hb.mono (by omega))
  | record w => exact fits_record ho w hb

theorem Below.nil {n : Nat} : Below i [] n := fun _ hk => nomatch hk

theorem fits_ops {e : Env} {t : Nat} (ho : e.Ordered i) {c : Call} (hc : Allowed i c) : Fits i [] (ops e t c) := by
  cases c with
  | record w => exact fits_record ho w .nil
  | log => exact fits_log ho .nil
  | subscribe => exact Fits.block Below.nil Fits.nil
  | object n f =>
    refine Fits.block Below.nil ?_
    cases f with
    | none => exact Fits.nil
    | some w => exact fits_record ho w (Below.nil.cons (by simp [rank]))
  | range r fs => exact Fits.block Below.nil (Fits.flatMap fun w _ => fits_record ho w (Below.nil.cons (by simp [rank])))
  | scope first =>
    refine Fits.append ?_ (Fits.block Below.nil Fits.nil)
    cases first
    · exact Fits.nil
    · exact Fits.block Below.nil Fits.nil
  | iterate ts =>
    refine Fits.block Below.nil (Fits.flatMap fun u _ => Fits.block ?_ (Fits.flatMap fun a ha => ?_))
    · exact Below.nil.cons (by simp [rank])
    · exact fits_quiet ho (ho.2 a ha) ((Below.nil.cons (by simp [rank])).cons (by simp [rank]))
  | finalizer => exact Fits.block Below.nil Fits.nil
  | own k b =>
    refine Fits.block Below.nil ?_
    cases hk : i k with
    | true => rw [hc.1 hk]; exact Fits.nil
    | false => exact Fits.flatMap fun a ha => fits_inside ho (hc.2 a ha) (Below.nil.cons (by simp [rank, hk]))

/-- All threads take mutexes in order, and the mutexes know who holds them. -/
def Inv (i : Nat → Bool) (m : Nat) (s : St) : Prop :=
  ∃ held : Nat → List Lock, (∀ t l, s.lock l = some t ↔ l ∈ held t) ∧ (∀ t, Nested i (held t) (s.todo t)) ∧
    (∀ t, m ≤ t → s.todo t = []) ∧ ∀ t, (held t).Nodup

theorem Inv.init (m : Nat) : Inv i m {} := ⟨fun _ => [], by simp, fun _ => rfl, fun _ _ => rfl, fun _ => .nil⟩

theorem set_todo (s : St) (t : Nat) (x : List Op) (j : Nat) : (s.set t x).todo j = if j = t then x else s.todo j := rfl
theorem set_lock (s : St) (t : Nat) (x : List Op) : (s.set t x).lock = s.lock := rfl
theorem setLock_todo (s : St) (l : Lock) (o : Option Nat) : (s.setLock l o).todo = s.todo := rfl
theorem setLock_lock (s : St) (l : Lock) (o : Option Nat) (k : Lock) : (s.setLock l o).lock k = if k = l then o else s.lock k := rfl

theorem Inv.go {m : Nat} {s : St} (h : Inv i m s) (t : Nat) : ∃ s', go s t = .ok s' ∧ Inv i m s' := by
  have h0 := h
  obtain ⟨held, hl, hs, hm, hnd⟩ := h
  unfold Locks.go
  cases hd : s.todo t with
  | nil => exact ⟨s, rfl, h0⟩
  | cons o r =>
    have hst := hs t
    rw [hd] at hst
    have hlt : ¬ m ≤ t := fun hc => by rw [hm t hc] at hd; cases hd
    have hm' : ∀ (s2 : St) (x : List Op), s2.todo = s.todo → ∀ j, m ≤ j → (s2.set t x).todo j = [] := fun s2 x he j hj => by
      rw [set_todo, if_neg (by omega), he]; exact hm j hj
    -- the mutexes of one thread change
    have fin : ∀ (l : Lock) (o : Option Nat) (x : List Lock),
        (∀ j k, (if k = l then o else s.lock k) = some j ↔ k ∈ (if j = t then x else held j)) → Nested i x r → x.Nodup →
        Inv i m ((s.setLock l o).set t r) := fun l o x h1 h2 h3 => by
      refine ⟨fun j => if j = t then x else held j, fun j k => h1 j k, fun j => ?_, hm' _ _ rfl, fun j => ?_⟩
      · rw [set_todo, setLock_todo]
        dsimp only
        split
        · exact h2
        · exact hs j
      · dsimp only
        split
        · exact h3
        · exact hnd j
    cases o with
    | acq l =>
      dsimp only
      cases hk : s.lock l with
      | some u => exact ⟨s, rfl, h0⟩
      | none =>
        refine ⟨_, rfl, fin l (some t) (l :: held t) (fun j k => ?_) hst.2 (List.nodup_cons.mpr ⟨fun hx => ?_, hnd t⟩)⟩
        · have hx := hl j k
          have hy := hl j l
          rw [hk] at hy
          grind
        · have := (hl t l).mpr hx
          rw [hk] at this; cases this
    | rel l =>
      obtain ⟨h', he, hn⟩ := hst
      have hk : s.lock l = some t := (hl t l).mpr (by rw [he]; simp)
      have hd' := hnd t
      rw [he] at hd'
      obtain ⟨hd1, hd2⟩ := List.nodup_cons.mp hd'
      dsimp only
      rw [if_pos hk]
      refine ⟨_, rfl, fin l none h' (fun j k => ?_) hn hd2⟩
      have hx := hl j k
      grind

theorem Inv.call {m : Nat} {s : St} (h : Inv i m s) {e : Env} (ho : e.Ordered i) {t : Nat} {c : Call} (hc : Allowed i c)
    (h0 : s.todo t = []) (ht : t < m) : Inv i m (s.set t (ops e t c)) := by
  obtain ⟨held, hl, hs, hm, hnd⟩ := h
  refine ⟨held, hl, fun j => ?_, fun j hj => ?_, hnd⟩
  · rw [set_todo]
    split
    · rename_i hj
      subst hj
      have he := hs j
      rw [h0] at he
      rw [show held j = [] from he]
      have := fits_ops (t := j) ho hc [] rfl
      rwa [List.append_nil] at this
    · exact hs j
  · rw [set_todo, if_neg (by omega)]; exact hm j hj

/-- The calls of a schedule keep to the rules. -/
def Good (i : Nat → Bool) : Ev → Prop
  | .call _ c => Allowed i c
  | .go _ => True

theorem Inv.step {m : Nat} {e : Env} (ho : e.Ordered i) (s : St) (v : Ev) (hv : Good i v) (h : Inv i m s) :
    ∃ s', step e m s v = .ok s' ∧ Inv i m s' := by
  cases v with
  | go t => exact h.go t
  | call t c =>
    unfold Locks.step
    dsimp only
    split
    · rename_i hx
      exact ⟨_, rfl, h.call ho hv hx.1 hx.2⟩
    · exact ⟨s, rfl, h⟩

theorem Inv.run {m : Nat} {e : Env} (ho : e.Ordered i) (es : List Ev) (hes : ∀ v ∈ es, Good i v) {s : St} (h : Inv i m s) :
    ∃ s', runAll (Locks.step e m) s es = .ok s' ∧ Inv i m s' :=
  runAll_inv_of (P := Good i) (fun s v hv hs => Inv.step ho s v hv hs) es s hes h

/-- The thread has nothing to do or waits for a mutex. -/
def waits (s : St) (t : Nat) : Bool :=
  match s.todo t with
  | [] => true
  | .acq l :: _ => (s.lock l).isSome
  | .rel _ :: _ => false

/-- Steps that remain for all threads. -/
def total (m : Nat) (s : St) : Nat := ((List.range m).map fun t => (s.todo t).length).sum

theorem go_waits {s : St} {t : Nat} (h : waits s t = true) : go s t = .ok s := by
  unfold waits at h
  unfold Locks.go
  split <;> rename_i hd <;> rw [hd] at h
  · dsimp only at h
    split
    · rename_i hk; rw [hk] at h; cases h
    · rfl
  · cases h

theorem go_advances {s s' : St} {t : Nat} (h : waits s t = false) (hg : go s t = .ok s') :
    (s'.todo t).length < (s.todo t).length ∧ ∀ j, j ≠ t → s'.todo j = s.todo j := by
  unfold waits at h
  unfold Locks.go at hg
  have fin : ∀ (o : Op) (r : List Op) (s2 : St), s.todo t = o :: r → s2.todo = s.todo →
      ((s2.set t r).todo t).length < (s.todo t).length ∧ ∀ j, j ≠ t → (s2.set t r).todo j = s.todo j := fun o r s2 hd he => by
    refine ⟨?_, fun j hj => by rw [set_todo, if_neg hj, he]⟩
    rw [set_todo, if_pos rfl, hd, List.length_cons]; omega
  split at hg <;> rename_i hd <;> rw [hd] at h
  · cases h
  · dsimp only at h
    split at hg
    · cases hg; exact fin _ _ _ hd rfl
    · rename_i hk; rw [hk] at h; cases h
  · split at hg
    · cases hg; exact fin _ _ _ hd rfl
    · cases hg

theorem sum_lt {f g : Nat → Nat} {t : Nat} : ∀ {m : Nat}, t < m → f t < g t → (∀ j, j ≠ t → f j = g j) →
    ((List.range m).map f).sum < ((List.range m).map g).sum := by
  intro m
  induction m with
  | zero => intro h; omega
  | succ m ih =>
    intro ht hlt he
    rw [List.range_succ, List.map_append, List.map_append, List.sum_append, List.sum_append]
    simp only [List.map_cons, List.map_nil, List.sum_cons, List.sum_nil]
    by_cases e : t = m
    · subst e
      have : (List.range t).map f = (List.range t).map g :=
        List.map_congr_left fun j hj => he j (by have := List.mem_range.mp hj; omega)
      rw [this]
      omega
    · have := ih (by omega) hlt he
      rw [he m (fun x => e x.symm)]
      omega

theorem Inv.lt {m : Nat} {s : St} (h : Inv i m s) {t : Nat} (hw : s.todo t ≠ []) : t < m := by
  obtain ⟨_, _, _, hm, _⟩ := h
  by_contra hc
  exact hw (hm t (by omega))

theorem rank_le (l : Lock) : rank i l ≤ 8 := by
  cases l <;> simp only [rank] <;> (try split) <;> omega

/-- Some thread can go on: the one that holds the mutex of the highest rank. -/
theorem Inv.progress {m : Nat} {s : St} (h : Inv i m s) {t : Nat} (ht : s.todo t ≠ []) : ∃ u, u < m ∧ waits s u = false := by
  have h0 := h
  obtain ⟨held, hl, hs, _, _⟩ := h
  have key : ∀ n u l, 8 - rank i l < n → s.lock l = some u → ∃ u, u < m ∧ waits s u = false := fun n => by
    induction n with
    | zero => intro u l hn; omega
    | succ n ih =>
      intro u l hn hu
      have hh := (hl u l).mp hu
      have hsu := hs u
      cases hd : s.todo u with
      | nil => rw [hd] at hsu; rw [show held u = [] from hsu] at hh; cases hh
      | cons o r =>
        cases hw : waits s u with
        | false => exact ⟨u, h0.lt (by rw [hd]; simp), hw⟩
        | true =>
          unfold waits at hw
          rw [hd] at hw hsu
          cases o with
          | rel _ => cases hw
          | acq k =>
            dsimp only at hw
            cases hk : s.lock k with
            | none => rw [hk] at hw; cases hw
            | some v =>
              have h1 := hsu.1 _ hh
              have h2 := rank_le (i := i) k
              exact ih v k (by omega) hk
  cases hw : waits s t with
  | false => exact ⟨t, h0.lt ht, hw⟩
  | true =>
    unfold waits at hw
    cases hd : s.todo t with
    | nil => exact absurd hd ht
    | cons o r =>
      rw [hd] at hw
      cases o with
      | rel _ => cases hw
      | acq l =>
        dsimp only at hw
        cases hk : s.lock l with
        | none => rw [hk] at hw; cases hw
        | some v => exact key _ v l (Nat.lt_succ_self _) hk

/-- One round. -/
theorem round {m : Nat} {e : Env} : ∀ (p : List Nat) {s : St}, Inv i m s →
    ∃ s', runAll (Locks.step e m) s (p.map .go) = .ok s' ∧ Inv i m s' ∧
    (s' = s ∧ (∀ j ∈ p, waits s j = true) ∨ total m s' < total m s) := by
  intro p
  induction p with
  | nil => intro s h; exact ⟨s, rfl, h, .inl ⟨rfl, by simp⟩⟩
  | cons t p ih =>
    intro s h
    obtain ⟨s1, e1, i1⟩ := h.go t
    cases hw : waits s t with
    | true =>
      obtain ⟨s', e2, i2, hx⟩ := ih h
      refine ⟨s', ?_, i2, ?_⟩
      · simp only [List.map_cons, runAll, Locks.step, go_waits hw]; exact e2
      · rcases hx with ⟨e, ha⟩ | hlt
        · refine .inl ⟨e, fun j hj => ?_⟩
          rcases List.mem_cons.mp hj with rfl | hj
          · exact hw
          · exact ha j hj
        · exact .inr hlt
    | false =>
      obtain ⟨s', e2, i2, hx⟩ := ih i1
      refine ⟨s', ?_, i2, .inr ?_⟩
      · simp only [List.map_cons, runAll, Locks.step, e1]; exact e2
      · obtain ⟨hlt, hoth⟩ := go_advances hw e1
        have htm : t < m := h.lt fun hn => by unfold waits at hw; rw [hn] at hw; cases hw
        have h3 : total m s1 < total m s := sum_lt (f := fun j => (s1.todo j).length) (g := fun j => (s.todo j).length) htm hlt
          fun j hj => by rw [hoth j hj]
        rcases hx with ⟨rfl, _⟩ | hx
        · exact h3
        · omega

theorem rounds {m : Nat} {e : Env} : ∀ (ps : List (List Nat)) {s : St}, Inv i m s → (∀ p ∈ ps, ∀ j, j < m → j ∈ p) →
    ∃ s', runAll (Locks.step e m) s (ps.flatten.map .go) = .ok s' ∧ Inv i m s' ∧
      ((∃ t, s'.todo t ≠ []) → total m s' + ps.length ≤ total m s) := by
  intro ps
  induction ps with
  | nil => intro s h _; exact ⟨s, rfl, h, fun _ => by simp⟩
  | cons p ps ih =>
    intro s h hp
    obtain ⟨s1, e1, i1, h1⟩ := round (e := e) p h
    obtain ⟨s', e2, i2, h2⟩ := ih i1 fun q hq => hp q (.tail _ hq)
    refine ⟨s', ?_, i2, fun hne => ?_⟩
    · rw [List.flatten_cons, List.map_append, runAll_append _ _ _ _ _ e1]; exact e2
    · have h3 := h2 hne
      rcases h1 with ⟨rfl, hw⟩ | hlt
      · have hall : ∀ t, s1.todo t = [] := fun t => by
          by_contra hn
          obtain ⟨u, hu, hwu⟩ := h.progress hn
          rw [hw u (hp p (.head _) u hu)] at hwu; cases hwu
        have hstay : ∀ qs : List Nat, runAll (Locks.step e m) s1 (qs.map .go) = .ok s1 := fun qs => by
          induction qs with
          | nil => rfl
          | cons q qs ihq =>
            have : go s1 q = .ok s1 := go_waits (by unfold waits; rw [hall q])
            simp only [List.map_cons, runAll, Locks.step, this]; exact ihq
        rw [hstay] at e2
        cases e2
        obtain ⟨t, ht⟩ := hne
        exact absurd (hall t) ht
      · rw [List.length_cons]; omega

/-- Threads that wait for each other do so after every step. -/
theorem Dead.step {s s' : St} {d : List Nat} (hd : Dead s d) {e : Env} {m : Nat} {v : Ev} (hs : step e m s v = .ok s') :
    Dead s' d ∧ ∀ t ∈ d, s'.todo t = s.todo t := by
  have frame : ∀ (t : Nat) (x : List Op) (s2 : St), t ∉ d → s2.todo = s.todo →
      (∀ l u, u ∈ d → s.lock l = some u → s2.lock l = some u) → Dead (s2.set t x) d ∧ ∀ j ∈ d, (s2.set t x).todo j = s.todo j :=
    fun t x s2 ht he hk => by
      have h1 : ∀ j ∈ d, (s2.set t x).todo j = s.todo j := fun j hj => by
        rw [set_todo, if_neg (fun hx : j = t => ht (hx ▸ hj)), he]
      refine ⟨⟨hd.1, fun j hj => ?_⟩, h1⟩
      obtain ⟨l, r, u, h2, h3, h4⟩ := hd.2 j hj
      exact ⟨l, r, u, by rw [h1 j hj, h2], by rw [set_lock]; exact hk l u h4 h3, h4⟩
  cases v with
  | call t c =>
    unfold Locks.step at hs
    dsimp only at hs
    split at hs
    · rename_i hx
      cases hs
      refine frame t _ s (fun ht => ?_) rfl fun _ _ _ h => h
      obtain ⟨l, r, u, h2, _⟩ := hd.2 t ht
      rw [hx.1] at h2; cases h2
    · cases hs; exact ⟨hd, fun _ _ => rfl⟩
  | go t =>
    by_cases ht : t ∈ d
    · obtain ⟨l, r, u, h2, h3, h4⟩ := hd.2 t ht
      have : go s t = .ok s := go_waits (by unfold waits; rw [h2]; dsimp only; rw [h3]; rfl)
      have hs' : go s t = .ok s' := hs
      rw [this] at hs'
      cases hs'
      exact ⟨hd, fun _ _ => rfl⟩
    · have hs' : go s t = .ok s' := hs
      unfold Locks.go at hs'
      split at hs'
      · cases hs'; exact ⟨hd, fun _ _ => rfl⟩
      · rename_i l r hr
        split at hs'
        · rename_i hk
          cases hs'
          refine frame t r _ ht rfl fun k u _ hu => ?_
          rw [setLock_lock, if_neg (fun hx : k = l => by rw [hx, hk] at hu; cases hu), hu]
        · cases hs'; exact ⟨hd, fun _ _ => rfl⟩
      · rename_i l r hr
        split at hs'
        · rename_i hk
          cases hs'
          refine frame t r _ ht rfl fun k u hud hu => ?_
          rw [setLock_lock, if_neg (fun hx : k = l => by rw [hx, hk] at hu; cases hu; exact ht hud), hu]
        · cases hs'

theorem Dead.run {e : Env} {m : Nat} {d : List Nat} : ∀ (es : List Ev) {s s' : St}, Dead s d →
    runAll (Locks.step e m) s es = .ok s' → ∀ t ∈ d, s'.todo t = s.todo t := by
  intro es
  induction es with
  | nil => intro s s' _ h t _; cases h; rfl
  | cons v es ih =>
    intro s s' hd h t ht
    unfold runAll at h
    cases h1 : Locks.step e m s v with
    | error x => rw [h1] at h; cases h
    | ok s1 =>
      rw [h1] at h
      obtain ⟨h2, h3⟩ := hd.step h1
      rw [ih h2 h t ht, h3 t ht]

end Rpp.Locks
