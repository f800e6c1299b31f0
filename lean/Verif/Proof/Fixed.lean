import Verif.Spec.Fixed
import Verif.Proof.Hash

/-!
# Tuples, pairs, arrays, `swap`: lemmas
-/

namespace Rpp.Fixed
open Rpp.Spec

variable {V β γ : Type}

theorem bind_ok {m : L β} {f : β → L γ} {s s' : Ledger} {b : β} (h : m s = .ok (b, s')) :
    (m >>= f) s = f b s' := by
  show (m s >>= fun p => f p.1 p.2) = _
  rw [h]; rfl

theorem bind_err {m : L β} {f : β → L γ} {s : Ledger} {e : Err} (h : m s = .error e) :
    (m >>= f) s = .error e := by
  show (m s >>= fun p => f p.1 p.2) = _
  rw [h]; rfl

/-- `m` succeeds from `s` with a result that satisfies `Q`. -/
def Ok (m : L β) (s : Ledger) (Q : β → Ledger → Prop) : Prop := ∃ b s', m s = .ok (b, s') ∧ Q b s'

theorem Ok.bind {m : L β} {f : β → L γ} {s : Ledger} {Q : β → Ledger → Prop} {R : γ → Ledger → Prop}
    (h : Ok m s Q) (hf : ∀ b s', Q b s' → Ok (f b) s' R) : Ok (m >>= f) s R := by
  obtain ⟨b, s', h1, h2⟩ := h
  obtain ⟨c, s'', h3, h4⟩ := hf b s' h2
  exact ⟨c, s'', by rw [bind_ok h1, h3], h4⟩

theorem Ok.pure {b : β} {s : Ledger} {Q : β → Ledger → Prop} (h : Q b s) : Ok (Pure.pure b : L β) s Q := ⟨b, s, rfl, h⟩

theorem Ok.imp {m : L β} {s : Ledger} {Q R : β → Ledger → Prop} (h : Ok m s Q) (hi : ∀ b s', Q b s' → R b s') : Ok m s R := by
  obtain ⟨b, s', h1, h2⟩ := h
  exact ⟨b, s', h1, hi _ _ h2⟩

/-! ### The ledger -/

end Rpp.Fixed

namespace Rpp.Spec
open Rpp.Fixed

variable {V : Type}

theorem Fresh.refl (s : Ledger) : Fresh s s [] :=
  ⟨Nat.le_refl _, [], by simp, by simp⟩

theorem Fresh.perm {s s' : Ledger} {r r' : List Nat} (h : Fresh s s' r) (p : r.Perm r') : Fresh s s' r' := by
  obtain ⟨hl, tmp, h1, h2⟩ := h
  exact ⟨hl, tmp, h1, (List.Perm.append_left tmp p.symm).trans h2⟩

theorem Fresh.trans {s s1 s2 : Ledger} {r1 r2 : List Nat} (h : Fresh s s1 r1) (h' : Fresh s1 s2 r2) :
    Fresh s s2 (r1 ++ r2) := by
  obtain ⟨hl, t1, h1, h2⟩ := h
  obtain ⟨hl', t2, h3, h4⟩ := h'
  refine ⟨by omega, t1 ++ t2, by rw [h3, h1, List.append_assoc], ?_⟩
  have e : List.range' s.next (s2.next - s.next) =
      List.range' s.next (s1.next - s.next) ++ List.range' s1.next (s2.next - s1.next) := by
    rw [show s2.next - s.next = (s1.next - s.next) + (s2.next - s1.next) by omega, ← List.range'_append_1]
    rw [show s.next + (s1.next - s.next) = s1.next by omega]
  rw [e]
  refine List.Perm.trans ?_ (h2.append h4)
  rw [List.append_assoc, List.append_assoc]
  refine List.Perm.append_left t1 ?_
  rw [← List.append_assoc, ← List.append_assoc]
  exact List.Perm.append_right r2 List.perm_append_comm

theorem Fresh.mem {s s' : Ledger} {r : List Nat} (h : Fresh s s' r) {x : Nat} (hx : x ∈ r) : s.next ≤ x ∧ x < s'.next := by
  obtain ⟨hl, tmp, h1, h2⟩ := h
  have := h2.mem_iff.1 (List.mem_append_right tmp hx)
  rw [List.mem_range'_1] at this
  omega

theorem Fresh.alive {s s' : Ledger} {r : List Nat} (h : Fresh s s' r) (w : LedgerOk s) {x : Nat} (hx : x ∈ r) :
    x ∉ s'.dead := by
  have hm := h.mem hx
  obtain ⟨hl, tmp, h1, h2⟩ := h
  rw [h1, List.mem_append]
  rintro (h3 | h3)
  · have := w x h3; omega
  · have hn := h2.nodup_iff.2 List.nodup_range'
    rw [List.nodup_append] at hn
    exact hn.2.2 x h3 x hx rfl

theorem Fresh.old {s s' : Ledger} {r : List Nat} (h : Fresh s s' r) {x : Nat} (h1 : x < s.next) (h2 : x ∉ s.dead) :
    x ∉ s'.dead := by
  obtain ⟨hl, tmp, h3, h4⟩ := h
  rw [h3, List.mem_append]
  rintro (h5 | h5)
  · exact h2 h5
  · have := h4.mem_iff.1 (List.mem_append_left r h5)
    rw [List.mem_range'_1] at this
    omega

theorem Fresh.ledger {s s' : Ledger} {r : List Nat} (h : Fresh s s' r) (w : LedgerOk s) : LedgerOk s' := by
  obtain ⟨hl, tmp, h3, h4⟩ := h
  intro d hd
  rw [h3, List.mem_append] at hd
  rcases hd with hd | hd
  · have := w d hd; omega
  · have := h4.mem_iff.1 (List.mem_append_left r hd)
    rw [List.mem_range'_1] at this
    omega

theorem Fresh.kill {s s' : Ledger} {r : List Nat} {x : Nat} (h : Fresh s s' (x :: r)) :
    Fresh s ⟨s'.next, s'.dead ++ [x]⟩ r := by
  obtain ⟨hl, tmp, h3, h4⟩ := h
  refine ⟨hl, tmp ++ [x], by simp [h3], ?_⟩
  simpa using h4

theorem AllAlive.later {s s' : Ledger} {r : List Nat} {os : List (Obj V)} (h : AllAlive s os) (f : Fresh s s' r) :
    AllAlive s' os := fun o ho => ⟨Nat.lt_of_lt_of_le (h o ho).1 f.le, f.old (h o ho).1 (h o ho).2⟩

end Rpp.Spec

namespace Rpp.Fixed
open Rpp.Spec

variable {V β γ : Type}

/-! ### Single objects -/

theorem mk_ok (v : Option V) (s : Ledger) :
    Ok (mk v) s (fun o s' => o = ⟨s.next, v⟩ ∧ Fresh s s' [s.next] ∧ s'.dead = s.dead ∧ s'.next = s.next + 1) := by
  refine ⟨_, _, rfl, rfl, ⟨Nat.le_succ _, [], by simp, ?_⟩, rfl, rfl⟩
  show List.Perm [s.next] (List.range' s.next (s.next + 1 - s.next))
  rw [Nat.add_sub_cancel_left]; simp

theorem copy_ok {o : Obj V} {s : Ledger} (h : o.id ∉ s.dead) :
    Ok (copy o) s (fun p s' => p = ⟨s.next, o.val⟩ ∧ Fresh s s' [s.next] ∧ s'.dead = s.dead ∧ s'.next = s.next + 1) := by
  obtain ⟨b, s', h1, h3⟩ := mk_ok o.val s
  refine ⟨b, s', ?_, h3⟩
  unfold copy
  rw [if_neg h, h1]

theorem moveNew_ok {o : Obj V} {s : Ledger} (h : o.id ∉ s.dead) :
    Ok (moveNew o) s (fun p s' => p = (⟨s.next, o.val⟩, ⟨o.id, none⟩) ∧ Fresh s s' [s.next] ∧ s'.dead = s.dead ∧
      s'.next = s.next + 1) := by
  obtain ⟨b, s', h1, rfl, h3⟩ := mk_ok o.val s
  refine ⟨_, s', ?_, rfl, h3⟩
  unfold moveNew
  rw [if_neg h, h1]; rfl

theorem dtor_ok {o : Obj V} {s0 s : Ledger} {r : List Nat} (w : LedgerOk s0) (h : Fresh s0 s (o.id :: r)) :
    Ok (dtor o) s (fun _ s' => Fresh s0 s' r) := by
  refine ⟨(), ⟨s.next, s.dead ++ [o.id]⟩, ?_, h.kill⟩
  unfold dtor
  rw [if_neg (h.alive w (List.mem_cons_self ..))]

theorem moveTo_ok {d o : Obj V} {s : Ledger} (h : o.id ∉ s.dead) (h' : d.id ∉ s.dead) :
    Ok (moveTo d o) s (fun p s' => p = (⟨d.id, o.val⟩, ⟨o.id, none⟩) ∧ s' = s) := by
  refine ⟨_, s, ?_, rfl, rfl⟩
  unfold moveTo
  rw [if_neg (by simp [h, h'])]

/-! ### Tuples -/

theorem Tup.dtor_ok {s0 : Ledger} (w : LedgerOk s0) (t : Tup V) : ∀ {s : Ledger} {r : List Nat},
    Fresh s0 s ((members t).map Obj.id ++ r) → Ok t.dtor s (fun _ s' => Fresh s0 s' r) := by
  induction t with
  | nil => intro s r h; exact Ok.pure h
  | cons f t ih =>
    intro s r h
    refine Ok.bind (ih (r := f.id :: r) (h.perm ?_)) (fun _ s' h' => Fixed.dtor_ok w h')
    exact (List.perm_middle).symm

theorem Tup.moveNew_ok (t : Tup V) : ∀ {s : Ledger}, (∀ o ∈ members t, o.id ∉ s.dead) →
    Ok t.moveNew s (fun p s' => (members p.1).map Obj.val = (members t).map Obj.val ∧
      (members p.2).map Obj.id = (members t).map Obj.id ∧ Fresh s s' ((members p.1).map Obj.id) ∧ s'.dead = s.dead) := by
  induction t with
  | nil => intro s _; exact Ok.pure ⟨rfl, rfl, Fresh.refl s, rfl⟩
  | cons f t ih =>
    intro s h
    refine Ok.bind (Fixed.moveNew_ok (h f (List.mem_cons_self ..))) ?_
    rintro _ s1 ⟨rfl, h1, h2, h3⟩
    refine Ok.bind (ih (s := s1) (fun o ho => h2 ▸ h o (List.mem_cons_of_mem _ ho))) ?_
    rintro ⟨r', r⟩ s2 ⟨h4, h5, h6, h7⟩
    refine Ok.pure ⟨?_, ?_, h1.trans h6, h7.trans h2⟩
    · simp [members, h4]
    · simp [members, h5]

theorem Tup.clone_ok (t : Tup V) : ∀ {s : Ledger}, LedgerOk s → AllAlive s (members t) →
    Ok t.clone s (fun t' s' => (members t').map Obj.val = (members t).map Obj.val ∧
      Fresh s s' ((members t').map Obj.id)) := by
  induction t with
  | nil => intro s _ _; exact Ok.pure ⟨rfl, Fresh.refl s⟩
  | cons f t ih =>
    intro s w h
    refine Ok.bind (copy_ok (h f (List.mem_cons_self ..)).2) ?_
    rintro _ s1 ⟨rfl, h1, h2, h3⟩
    have ha : AllAlive s (members t) := fun o ho => h o (List.mem_cons_of_mem _ ho)
    refine Ok.bind (ih (h1.ledger w) (ha.later h1)) ?_
    rintro b s2 ⟨hv, h4⟩
    have h5 := h1.trans h4
    refine Ok.bind (Fixed.moveNew_ok (h5.alive w (List.mem_cons_self ..))) ?_
    rintro _ s3 ⟨rfl, h6, h7, h8⟩
    have h9 := h5.trans h6
    refine Ok.bind (Tup.moveNew_ok b (fun o ho => h9.alive w (List.mem_append_left _ (List.mem_cons_of_mem _
      (List.mem_map_of_mem ho))))) ?_
    rintro ⟨r', b'⟩ s4 ⟨h10, h11, h12, h13⟩
    have h14 := h9.trans h12
    refine Ok.bind (Tup.dtor_ok w b' (s := s4) (r := s.next :: s2.next :: (members r').map Obj.id) (h14.perm ?_)) ?_
    · dsimp only at h11
      rw [h11]
      simp only [List.singleton_append, List.append_assoc, List.cons_append, List.nil_append]
      exact List.perm_middle.symm
    · rintro _ s5 h15
      refine Ok.bind (Fixed.dtor_ok w h15) ?_
      rintro _ s6 h16
      refine Ok.pure ⟨?_, h16⟩
      simp only [members, List.map_cons, h10, hv]

theorem Tup.make_ok (args : List (Bool × Obj V)) : ∀ {s : Ledger}, (∀ a ∈ args, a.2.id ∉ s.dead) →
    Ok (Tup.make args) s (fun p s' => (members p.1).map Obj.val = args.map (fun a => a.2.val) ∧
      p.2 = args.map (fun a => if a.1 then ⟨a.2.id, none⟩ else a.2) ∧ Fresh s s' ((members p.1).map Obj.id) ∧
      s'.dead = s.dead) := by
  induction args with
  | nil => intro s _; exact Ok.pure ⟨rfl, rfl, Fresh.refl s, rfl⟩
  | cons a args ih =>
    intro s h
    have hr : ∀ s1 : Ledger, s1.dead = s.dead → ∀ a ∈ args, a.2.id ∉ s1.dead :=
      fun s1 e a ha => e ▸ h a (List.mem_cons_of_mem _ ha)
    obtain ⟨b, o⟩ := a
    have ho := h (b, o) (List.mem_cons_self ..)
    cases b with
    | true =>
      refine Ok.bind (Fixed.moveNew_ok ho) ?_
      rintro _ s1 ⟨rfl, h1, h2, h3⟩
      refine Ok.bind (ih (hr s1 h2)) ?_
      rintro ⟨r, os⟩ s2 ⟨h4, h5, h6, h7⟩
      refine Ok.pure ⟨?_, ?_, h1.trans h6, h7.trans h2⟩
      · simp [members, h4]
      · dsimp only at h5 ⊢; simp [h5]
    | false =>
      refine Ok.bind (copy_ok ho) ?_
      rintro _ s1 ⟨rfl, h1, h2, h3⟩
      refine Ok.bind (ih (hr s1 h2)) ?_
      rintro ⟨r, os⟩ s2 ⟨h4, h5, h6, h7⟩
      refine Ok.pure ⟨?_, ?_, h1.trans h6, h7.trans h2⟩
      · simp [members, h4]
      · dsimp only at h5 ⊢; simp [h5]

theorem Tup.get_eq (t : Tup V) : ∀ i, t.get i = (members t)[i]? := by
  induction t with
  | nil => intro i; simp [Tup.get, members]
  | cons f t ih =>
    intro i
    cases i with
    | zero => simp [Tup.get, members]
    | succ i => simp [Tup.get, members, ih]

theorem Tup.length_eq (t : Tup V) : t.length = (members t).length := by
  induction t with
  | nil => rfl
  | cons f t ih => simp [Tup.length, members, ih]; omega

theorem Tup.put_eq (t : Tup V) (v : V) : ∀ i, members (t.put i v) =
    (members t).modify i (fun o => { o with val := some v }) := by
  induction t with
  | nil => intro i; simp [Tup.put, members]
  | cons f t ih =>
    intro i
    cases i with
    | zero => simp [Tup.put, members]
    | succ i => simp [Tup.put, members, ih]

theorem mapM_get (l : List β) : ∀ n, n ≤ l.length → (List.range n).mapM (fun i => l[i]?) = some (l.take n) := by
  intro n
  induction n with
  | zero => intro _; rfl
  | succ n ih =>
    intro hn
    rw [List.range_succ, List.mapM_append, ih (by omega)]
    have : l[n]? = some l[n] := List.getElem?_eq_getElem (by omega)
    rw [List.take_add_one, this]
    simp only [List.mapM_cons, List.mapM_nil, this]
    rfl

theorem Tup.invoke_eq {R : Type} (t : Tup V) (f : List (Obj V) → R) : t.invoke f = some (f (members t)) := by
  have h : (List.range t.length).mapM t.get = some (members t) := by
    have e : t.get = fun i => (members t)[i]? := funext (Tup.get_eq t)
    rw [e, Tup.length_eq, mapM_get _ _ (Nat.le_refl _), List.take_length]
  cases t with
  | nil => rfl
  | cons a b =>
    show Option.map f ((List.range (Tup.cons a b).length).mapM (Tup.cons a b).get) = _
    rw [h]; rfl

/-! ### Pairs -/

theorem pairClone_ok (ca cb : Bool) (p : Obj V × Obj V) {s : Ledger} (w : LedgerOk s) (h : AllAlive s [p.1, p.2]) :
    Ok (pairClone ca cb p) s (fun q s' => q.1.val = p.1.val ∧ q.2.val = p.2.val ∧ Fresh s s' [q.1.id, q.2.id]) := by
  have h1 := h p.1 (by simp)
  have h2 := h p.2 (by simp)
  cases ca <;> cases cb <;> unfold pairClone
  · refine Ok.bind (copy_ok h1.2) ?_
    rintro _ s1 ⟨rfl, a1, a2, a3⟩
    refine Ok.bind (copy_ok (a1.old h2.1 h2.2)) ?_
    rintro _ s2 ⟨rfl, b1, b2, b3⟩
    exact Ok.pure ⟨rfl, rfl, a1.trans b1⟩
  · refine Ok.bind (copy_ok h2.2) ?_
    rintro _ s1 ⟨rfl, a1, a2, a3⟩
    refine Ok.bind (copy_ok (a1.old h1.1 h1.2)) ?_
    rintro _ s2 ⟨rfl, b1, b2, b3⟩
    have f2 := a1.trans b1
    refine Ok.bind (moveNew_ok (f2.alive w (by simp))) ?_
    rintro _ s3 ⟨rfl, c1, c2, c3⟩
    refine Ok.bind (dtor_ok w (o := ⟨s.next, none⟩) (f2.trans c1)) ?_
    rintro _ s4 d1
    exact Ok.pure ⟨rfl, rfl, d1⟩
  · refine Ok.bind (copy_ok h1.2) ?_
    rintro _ s1 ⟨rfl, a1, a2, a3⟩
    refine Ok.bind (moveNew_ok (a1.alive w (by simp))) ?_
    rintro _ s2 ⟨rfl, b1, b2, b3⟩
    have f2 := a1.trans b1
    refine Ok.bind (copy_ok (f2.old h2.1 h2.2)) ?_
    rintro _ s3 ⟨rfl, c1, c2, c3⟩
    refine Ok.bind (dtor_ok w (o := ⟨s.next, none⟩) (f2.trans c1)) ?_
    rintro _ s4 d1
    exact Ok.pure ⟨rfl, rfl, d1⟩
  · refine Ok.bind (copy_ok h1.2) ?_
    rintro _ s1 ⟨rfl, a1, a2, a3⟩
    refine Ok.bind (copy_ok (a1.old h2.1 h2.2)) ?_
    rintro _ s2 ⟨rfl, b1, b2, b3⟩
    have f2 := a1.trans b1
    refine Ok.bind (moveNew_ok (f2.alive w (by simp))) ?_
    rintro _ s3 ⟨rfl, c1, c2, c3⟩
    have f3 := f2.trans c1
    refine Ok.bind (moveNew_ok (f3.alive w (by simp))) ?_
    rintro _ s4 ⟨rfl, d1, d2, d3⟩
    have f4 := f3.trans d1
    refine Ok.bind (dtor_ok w (o := ⟨s1.next, none⟩) (s := s4) (r := [s.next, s2.next, s3.next])
      (f4.perm (by simpa using List.Perm.swap s1.next s.next [s2.next, s3.next]))) ?_
    rintro _ s5 e1
    refine Ok.bind (dtor_ok w (o := ⟨s.next, none⟩) e1) ?_
    rintro _ s6 e2
    exact Ok.pure ⟨rfl, rfl, e2⟩

/-! ### Arrays -/

theorem Arr.at_ok {a : List (Obj V)} {i : Nat} (h : i < a.length) (s : Ledger) :
    Ok (Arr.at a i) s (fun o s' => o = a[i] ∧ s' = s) := by
  refine ⟨a[i], s, ?_, rfl, rfl⟩
  unfold Arr.at
  rw [List.getElem?_eq_getElem h]

theorem Arr.fresh_ok (d : V) : ∀ n (s : Ledger), Ok (Arr.fresh d n) s (fun r s' => r.length = n ∧
    Fresh s s' (r.map Obj.id) ∧ s'.dead = s.dead) := by
  intro n
  induction n with
  | zero => intro s; exact Ok.pure ⟨rfl, Fresh.refl s, rfl⟩
  | succ n ih =>
    intro s
    refine Ok.bind (mk_ok (some d) s) ?_
    rintro _ s1 ⟨rfl, h1, h2, h3⟩
    refine Ok.bind (ih s1) ?_
    rintro r s2 ⟨h4, h5, h6⟩
    exact Ok.pure ⟨by simp [h4], h1.trans h5, h6.trans h2⟩

theorem Arr.cloneLoop_ok {s0 : Ledger} (w : LedgerOk s0) (a : List (Obj V)) (ha : AllAlive s0 a) : ∀ (n i : Nat)
    (r : List (Obj V)) (s : Ledger), i + n = a.length → r.length = a.length →
    (r.take i).map Obj.val = (a.take i).map Obj.val → Fresh s0 s (r.map Obj.id) →
    Ok (Arr.cloneLoop a n i r) s (fun r' s' => r'.map Obj.val = a.map Obj.val ∧ r'.map Obj.id = r.map Obj.id ∧
      Fresh s0 s' (r'.map Obj.id)) := by
  intro n
  induction n with
  | zero =>
    intro i r s hi hr hv hf
    refine Ok.pure ⟨?_, rfl, hf⟩
    rwa [List.take_of_length_le (by omega), List.take_of_length_le (by omega)] at hv
  | succ n ih =>
    intro i r s hi hr hv hf
    have hia : i < a.length := by omega
    refine Ok.bind (Arr.at_ok hia s) ?_
    rintro _ s1 ⟨rfl, rfl⟩
    have hal := ha a[i] (List.getElem_mem hia)
    refine Ok.bind (copy_ok (hf.old hal.1 hal.2)) ?_
    rintro _ s2 ⟨rfl, h1, h2, h3⟩
    have hir : i < r.length := by omega
    refine Ok.bind (Arr.at_ok hir s2) ?_
    rintro _ s3 ⟨rfl, rfl⟩
    have f2 := hf.trans h1
    refine Ok.bind (moveTo_ok (f2.alive w (by simp)) (f2.alive w (List.mem_append_left _
      (List.mem_map_of_mem (List.getElem_mem hir))))) ?_
    rintro _ s4 ⟨rfl, rfl⟩
    refine Ok.bind (dtor_ok w (o := ⟨s1.next, none⟩) (r := r.map Obj.id) (f2.perm (by
      exact List.perm_append_comm))) ?_
    rintro _ s5 f3
    have hids : (r.set i ⟨r[i].id, a[i].val⟩).map Obj.id = r.map Obj.id := by
      rw [List.map_set]
      exact (by rw [show r[i].id = (r.map Obj.id)[i]'(by simpa using hir) by simp]; exact List.set_getElem_self _)
    refine Ok.imp (ih (i + 1) _ s5 (by omega) (by simpa using hr) ?_ (by rw [hids]; exact f3)) ?_
    · rw [List.take_add_one, List.take_add_one, List.map_append, List.map_append,
        List.take_set_of_le (Nat.le_refl i), hv, List.getElem?_set_self hir, List.getElem?_eq_getElem hia]
      simp
    · rintro r' s' ⟨g1, g2, g3⟩
      exact ⟨g1, g2.trans hids, g3⟩

theorem Arr.clone_ok (plain : Bool) (d : V) (a : List (Obj V)) {s : Ledger} (w : LedgerOk s) (ha : AllAlive s a) :
    Ok (Arr.clone plain d a) s (fun r s' => r.map Obj.val = a.map Obj.val ∧ Fresh s s' (r.map Obj.id)) := by
  refine Ok.bind (Arr.fresh_ok d a.length s) ?_
  rintro r s1 ⟨h1, h2, h3⟩
  cases plain with
  | true =>
    refine ⟨_, s1, rfl, ?_, ?_⟩
    · refine List.ext_getElem (by simp [h1]) (fun i h4 h5 => ?_)
      simp
    · have e : List.map Obj.id (List.zipWith (fun r o : Obj V => { r with val := o.val }) r a) = r.map Obj.id := by
        refine List.ext_getElem (by simp [h1]) (fun i h4 h5 => ?_)
        simp
      rw [e]; exact h2
  | false =>
    refine Ok.imp (Arr.cloneLoop_ok w a ha a.length 0 r s1 (by omega) h1 (by simp) h2) ?_
    rintro r' s' ⟨g1, _, g3⟩
    exact ⟨g1, g3⟩

/-! ### `swap` -/

theorem lift_ok {x : Res β} {b : β} {f : β → L γ} {s : Ledger} (h : x = .ok b) : ((liftM x : L β) >>= f) s = f b s := by
  rw [h]; rfl

theorem Ok.lift {x : Res β} {b : β} {f : β → L γ} {s : Ledger} {R : γ → Ledger → Prop} (h : x = .ok b)
    (hf : Ok (f b) s R) : Ok ((liftM x : L β) >>= f) s R := by
  obtain ⟨c, s', h1, h2⟩ := hf
  exact ⟨c, s', by rw [lift_ok h, h1], h2⟩

theorem ids_set {l : List (Obj V)} {i : Nat} (h : i < l.length) (v : Option V) :
    (l.set i ⟨l[i].id, v⟩).map Obj.id = l.map Obj.id := by
  rw [List.map_set]
  rw [show l[i].id = (l.map Obj.id)[i]'(by simpa using h) by simp]
  exact List.set_getElem_self _

theorem swap_self_plain (l : List (Obj V)) (i : Nat) (h : i < l.length) (s : Ledger) : swap true l i i s = .error .ub := by
  obtain ⟨_, _, h1, rfl, rfl⟩ := Arr.at_ok h s
  unfold swap
  rw [bind_ok h1, bind_ok h1]
  show ((liftM (copyBytes l i i) : L (List (Obj V))) >>= _) _ = _
  unfold copyBytes
  rw [if_pos rfl]; rfl

theorem swap_plain {l : List (Obj V)} {i j : Nat} (hi : i < l.length) (hj : j < l.length) (hne : i ≠ j) (s : Ledger) :
    swap true l i j s = .ok ((l.set i ⟨l[i].id, l[j].val⟩).set j ⟨l[j].id, l[i].val⟩, s) := by
  obtain ⟨_, _, h1, rfl, e1⟩ := Arr.at_ok hi s
  obtain ⟨_, _, h2, rfl, e2⟩ := Arr.at_ok hj s
  rw [e1] at h1
  rw [e2] at h2
  unfold swap
  rw [bind_ok h1, bind_ok h2]
  show ((liftM (copyBytes l i j) : L (List (Obj V))) >>= _) _ = _
  unfold copyBytes
  rw [if_neg hne, List.getElem?_eq_getElem hi, List.getElem?_eq_getElem hj]
  rfl

theorem swap_owning {l : List (Obj V)} {i j : Nat} (hi : i < l.length) (hj : j < l.length) {s : Ledger} (w : LedgerOk s)
    (ha : AllAlive s l) : Ok (swap false l i j) s (fun l' s' =>
      l' = (l.set i ⟨l[i].id, l[j].val⟩).set j ⟨l[j].id, l[i].val⟩ ∧ Fresh s s' []) := by
  have hai := ha _ (List.getElem_mem hi)
  have haj := ha _ (List.getElem_mem hj)
  unfold swap
  refine Ok.bind (Arr.at_ok hi s) ?_
  rintro _ _ ⟨rfl, rfl⟩
  refine Ok.bind (Arr.at_ok hj _) ?_
  rintro _ s1 ⟨rfl, rfl⟩
  show Ok (moveNew l[i] >>= _) s1 _
  refine Ok.bind (moveNew_ok hai.2) ?_
  rintro _ s2 ⟨rfl, h1, h2, h3⟩
  dsimp only
  by_cases hij : i = j
  · subst hij
    refine Ok.lift (b := l.set i ⟨l[i].id, none⟩) (by simp [assignAt, hi]) ?_
    refine Ok.bind (Arr.at_ok (by simpa using hi) s2) ?_
    rintro _ s3 ⟨rfl, rfl⟩
    rw [List.getElem_set_self]
    refine Ok.bind (moveTo_ok (o := ⟨s1.next, l[i].val⟩) (h1.alive w (by simp)) (h1.old hai.1 hai.2)) ?_
    rintro _ s4 ⟨rfl, rfl⟩
    refine Ok.bind (dtor_ok w (o := ⟨s1.next, none⟩) h1) ?_
    rintro _ s5 h4
    refine Ok.pure ⟨?_, h4⟩
    simp
  · refine Ok.lift (b := (l.set i ⟨l[i].id, l[j].val⟩).set j ⟨l[j].id, none⟩) (by
      simp [assignAt, hi, hj, hij]) ?_
    refine Ok.bind (Arr.at_ok (by simpa using hj) s2) ?_
    rintro _ s3 ⟨rfl, rfl⟩
    rw [List.getElem_set_self]
    refine Ok.bind (moveTo_ok (o := ⟨s1.next, l[i].val⟩) (h1.alive w (by simp)) (h1.old haj.1 haj.2)) ?_
    rintro _ s4 ⟨rfl, rfl⟩
    refine Ok.bind (dtor_ok w (o := ⟨s1.next, none⟩) h1) ?_
    rintro _ s5 h4
    refine Ok.pure ⟨?_, h4⟩
    simp

theorem swap_places {l : List (Obj V)} {i j : Nat} (hi : i < l.length) (hj : j < l.length) (k : Nat) :
    (((l.set i ⟨l[i].id, l[j].val⟩).set j ⟨l[j].id, l[i].val⟩)[k]?).map Obj.val = (l[exchanged i j k]?).map Obj.val ∧
    (((l.set i ⟨l[i].id, l[j].val⟩).set j ⟨l[j].id, l[i].val⟩)[k]?).map Obj.id = (l[k]?).map Obj.id := by
  unfold exchanged
  by_cases h1 : k = j
  · subst h1
    rw [List.getElem?_set_self (by simpa using hj)]
    by_cases h2 : k = i
    · subst h2; simp [hi]
    · simp [hi, hj, h2]
  · rw [List.getElem?_set_ne (fun h => h1 h.symm)]
    by_cases h2 : k = i
    · subst h2; simp [hi, hj]
    · rw [List.getElem?_set_ne (fun h => h2 h.symm)]; simp [h1, h2]

theorem swap_perm {l : List (Obj V)} {i j : Nat} (hi : i < l.length) (hj : j < l.length) :
    (((l.set i ⟨l[i].id, l[j].val⟩).set j ⟨l[j].id, l[i].val⟩).map Obj.val).Perm (l.map Obj.val) ∧
    ((l.set i ⟨l[i].id, l[j].val⟩).set j ⟨l[j].id, l[i].val⟩).map Obj.id = l.map Obj.id := by
  constructor
  · rw [List.map_set, List.map_set]
    have := List.set_set_perm (as := l.map Obj.val) (i := i) (j := j) (by simpa using hi) (by simpa using hj)
    simpa using this
  · refine List.ext_getElem? (fun k => ?_)
    rw [List.getElem?_map, List.getElem?_map]
    exact (swap_places hi hj k).2

theorem shuffle_draw {l : List (Obj V)} {i n : Nat} (hi : i + n + 2 = l.length) (hl : l.length < 2 ^ 64) (g : BitVec 64) :
    ∃ j : Nat, RNG.range Math.u64 i l.length g = .ok ((j : Int), RNG.next g) ∧ i ≤ j ∧ j < l.length := by
  have hb : ∀ k : Nat, k ≤ l.length → Math.u64.has (k : Int) := by
    intro k hk
    rw [RNG.has_lo rfl]
    simp only [show Math.u64.w = 64 from rfl]
    omega
  obtain ⟨v, e, h1, h2⟩ := RNG.range_unsigned (t := Math.u64) rfl (by decide) (hb i (by omega))
    (hb l.length (by omega)) (by omega) g
  exact ⟨v.toNat, by rw [e, Int.toNat_of_nonneg (by omega)], by omega, by omega⟩

theorem alive_of_ids {s : Ledger} {l l' : List (Obj V)} (h : AllAlive s l) (e : l'.map Obj.id = l.map Obj.id) : AllAlive s l' := by
  intro o ho
  have : o.id ∈ l.map Obj.id := e ▸ List.mem_map_of_mem ho
  obtain ⟨x, hx, hxe⟩ := List.mem_map.1 this
  rw [← hxe]
  exact h x hx

theorem shuffle_owning : ∀ (n i : Nat) (l : List (Obj V)) (g : BitVec 64) (s : Ledger), i + n + 1 = l.length →
    l.length < 2 ^ 64 → LedgerOk s → AllAlive s l →
    Ok (shuffleLoop false n i l g) s (fun r s' => (r.1.map Obj.val).Perm (l.map Obj.val) ∧ r.1.map Obj.id = l.map Obj.id ∧
      Fresh s s' []) := by
  intro n
  induction n with
  | zero => intro i l g s _ _ _ _; exact Ok.pure ⟨.refl _, rfl, Fresh.refl s⟩
  | succ n ih =>
    intro i l g s hi hl w ha
    obtain ⟨j, e, h1, h2⟩ := shuffle_draw (l := l) (i := i) (n := n) (by omega) hl g
    unfold shuffleLoop
    refine Ok.lift e ?_
    dsimp only
    rw [Int.toNat_natCast]
    have hi' : i < l.length := by omega
    refine Ok.bind (swap_owning hi' h2 w ha) ?_
    rintro _ s1 ⟨rfl, f1⟩
    have hp := swap_perm hi' h2
    refine Ok.imp (ih (i + 1) _ (RNG.next g) s1 (by simp; omega) (by simpa using hl) (f1.ledger w)
      ((alive_of_ids ha hp.2).later f1)) ?_
    rintro r s' ⟨a, b, c⟩
    exact ⟨a.trans hp.1, b.trans hp.2, f1.trans c⟩

theorem shuffle_plain : ∀ (n i : Nat) (l : List (Obj V)) (g : BitVec 64) (s : Ledger), i + n + 1 = l.length →
    l.length < 2 ^ 64 →
    shuffleLoop true n i l g s = .error .ub ∨
    ∃ r, shuffleLoop true n i l g s = .ok (r, s) ∧ (r.1.map Obj.val).Perm (l.map Obj.val) ∧ r.1.map Obj.id = l.map Obj.id := by
  intro n
  induction n with
  | zero => intro i l g s _ _; exact .inr ⟨_, rfl, .refl _, rfl⟩
  | succ n ih =>
    intro i l g s hi hl
    obtain ⟨j, e, h1, h2⟩ := shuffle_draw (l := l) (i := i) (n := n) (by omega) hl g
    have hi' : i < l.length := by omega
    unfold shuffleLoop
    rw [lift_ok e]
    dsimp only
    rw [Int.toNat_natCast]
    by_cases hij : i = j
    · subst hij
      left
      rw [bind_err (swap_self_plain l i h2 s)]
    · rw [bind_ok (swap_plain hi' h2 hij s)]
      have hp := swap_perm hi' h2
      rcases ih (i + 1) ((l.set i ⟨l[i].id, l[j].val⟩).set j ⟨l[j].id, l[i].val⟩) (RNG.next g) s (by simp; omega)
        (by simpa using hl) with h3 | ⟨r, h3, h4, h5⟩
      · exact .inl h3
      · exact .inr ⟨r, h3, h4.trans hp.1, h5.trans hp.2⟩

theorem shuffle_plain_self {n i : Nat} {l : List (Obj V)} {g : BitVec 64} {s : Ledger} (h : i < l.length)
    (e : RNG.range Math.u64 i l.length g = .ok ((i : Int), RNG.next g)) :
    shuffleLoop true (n + 1) i l g s = .error .ub := by
  unfold shuffleLoop
  rw [lift_ok e]
  dsimp only
  rw [Int.toNat_natCast, bind_err (swap_self_plain l i h s)]

end Rpp.Fixed
