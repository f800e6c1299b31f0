import Verif.Model.Pool
import Verif.Proof.Sched

namespace Rpp
namespace Pool

/-- The first queue the destructor has not signalled. -/
def Dtor.next (n : Nat) : Dtor → Nat
  | .live => 0
  | .lock i => i
  | .signal i => i
  | .unlock i => i + 1
  | .join => n
  | .gone => n

/-- The mutex a submitting thread holds. -/
def Sub.holds : Sub → Option Nat
  | .push i _ | .signal i | .unlock i => some i
  | _ => none

/-- The queue index a submitting thread works on. -/
def Sub.idx : Sub → Option Nat
  | .lock i _ | .push i _ | .signal i | .unlock i => some i
  | .idle => none

/-- The mutex the destructor holds. -/
def Dtor.holds : Dtor → Option Nat
  | .signal i | .unlock i => some i
  | _ => none

/-- How often job `j` is in the hands of a submitting thread. -/
def Sub.hand (j : Nat) : Sub → Nat
  | .lock _ k | .push _ k => if k = j then 1 else 0
  | _ => 0

/-- What holds of queue `i`. -/
structure QInv (s : St) (i : Nat) (q : Q) : Prop where
  fifo : q.pushed = q.taken ++ q.jobs
  worker : q.held = some .worker ↔ q.w = .check ∨ q.w = .check2
  sub : ∀ t : Nat, q.held = some (.sub t) ↔ ∃ u, s.subs[t]? = some u ∧ u.holds = some i
  dtor : q.held = some .dtor ↔ s.dtor.holds = some i
  awake : q.w = .asleep → q.jobs ≠ [] → ∃ t : Nat, s.subs[t]? = some (.signal i)
  next : q.w = .check2 → q.jobs ≠ [] ∨ s.shutdown
  down : q.w = .asleep → s.shutdown → s.dtor.next s.qs.length ≤ i
  exit : q.w = .exit → s.shutdown
  last : ∀ j, q.w = .run j → q.taken.getLast? = some j

/-- The invariant. -/
structure Inv (s : St) : Prop where
  q : ∀ (i : Nat) (q : Q), s.qs[i]? = some q → QInv s i q
  idx : ∀ (t : Nat) (u : Sub) (i : Nat), s.subs[t]? = some u → u.idx = some i → i < s.qs.length
  dlt : ∀ i, s.dtor = .lock i ∨ s.dtor = .signal i ∨ s.dtor = .unlock i → i < s.qs.length
  cons : ∀ j, s.submitted.count j = (s.qs.map fun q => q.pushed.count j).sum + (s.subs.map (Sub.hand j)).sum
  gone : s.dtor = .gone → (∀ q ∈ s.qs, q.w = .exit) ∧ (∀ u ∈ s.subs, u = .idle) ∧
    s.destroyed = (s.qs.map Q.jobs).flatten
  live : s.dtor ≠ .gone → s.destroyed = []

theorem QInv.frame {s s' : St} {k : Nat} {q : Q} (h : QInv s k q)
    (h1 : ∀ t : Nat, (∃ u, s'.subs[t]? = some u ∧ u.holds = some k) ↔
      (∃ u, s.subs[t]? = some u ∧ u.holds = some k))
    (h2 : s'.dtor.holds = some k ↔ s.dtor.holds = some k)
    (h3 : (∃ t : Nat, s.subs[t]? = some (.signal k)) → ∃ t : Nat, s'.subs[t]? = some (.signal k))
    (h4 : s.shutdown → s'.shutdown)
    (h5 : q.w = .asleep → s'.shutdown → s'.dtor.next s'.qs.length ≤ k) : QInv s' k q :=
  ⟨h.fifo, h.worker, fun t => (h.sub t).trans (h1 t).symm, h.dtor.trans h2.symm,
    fun a b => h3 (h.awake a b), fun a => (h.next a).imp id h4, h5, fun a => h4 (h.exit a), h.last⟩

theorem QInv.congr {s s' : St} {k : Nat} {q : Q} (h : QInv s k q) (h1 : s'.subs = s.subs)
    (h2 : s'.dtor = s.dtor) (h3 : s'.qs.length = s.qs.length) : QInv s' k q := by
  refine h.frame ?_ ?_ ?_ ?_ ?_
  · rw [h1]; exact fun _ => Iff.rfl
  · rw [h2]
  · rw [h1]; exact id
  · unfold St.shutdown; rw [h2]; exact id
  · unfold St.shutdown; rw [h2, h3]; exact h.down

theorem getset {α : Type} {l : List α} {i : Nat} {x : α} (h : l[i]? = some x) {a b : α} {k : Nat}
    (hk : (l.set i a)[k]? = some b) : (k = i ∧ b = a) ∨ (k ≠ i ∧ l[k]? = some b) := by
  rw [getElem?_set_of h] at hk
  split at hk
  · rename_i c; injection hk with hk; exact .inl ⟨c, hk.symm⟩
  · rename_i c; exact .inr ⟨c, hk⟩

theorem Inv.not_gone {s : St} (h : Inv s) {i : Nat} {q : Q} (hq : s.qs[i]? = some q) (hw : q.w ≠ .exit) :
    s.dtor ≠ .gone := fun c => hw ((h.gone c).1 q (List.mem_of_getElem? hq))

/-- Only queue `i` changes. -/
theorem Inv.setq {s s' : St} (h : Inv s) {i : Nat} {q q' : Q} (hq : s.qs[i]? = some q) (hw : q.w ≠ .exit)
    (h1 : s'.qs = s.qs.set i q') (h2 : s'.subs = s.subs) (h3 : s'.dtor = s.dtor)
    (h4 : s'.submitted = s.submitted) (h5 : s'.destroyed = s.destroyed) (h6 : q'.pushed = q.pushed)
    (h7 : QInv s i q') : Inv s' := by
  have hl : s'.qs.length = s.qs.length := by rw [h1, List.length_set]
  have hg := h.not_gone hq hw
  refine ⟨?_, by rw [h2, hl]; exact h.idx, by rw [h3, hl]; exact h.dlt, ?_,
    by rw [h3]; exact fun c => absurd c hg, by rw [h3, h5]; exact h.live⟩
  · intro k x hk
    rw [h1] at hk
    rcases getset hq hk with ⟨a, b⟩ | ⟨_, b⟩
    · subst a; subst b; exact h7.congr h2 h3 hl
    · exact (h.q k x b).congr h2 h3 hl
  · intro j
    rw [h4, h1, h2, h.cons j]
    have := sum_set (fun q : Q => q.pushed.count j) s.qs i q' _ hq
    simp only [h6] at this
    omega

/-- Queue `i` and submitting thread `t` change. -/
theorem Inv.both {s s' : St} (h : Inv s) {i t : Nat} {q q' : Q} {u u' : Sub} (hq : s.qs[i]? = some q)
    (hu : s.subs[t]? = some u) (hi : u ≠ .idle)
    (h1 : s'.qs = s.qs.set i q') (h2 : s'.subs = s.subs.set t u') (h3 : s'.dtor = s.dtor)
    (h4 : s'.submitted = s.submitted) (h5 : s'.destroyed = s.destroyed)
    (h6 : ∀ j, q'.pushed.count j + u'.hand j = q.pushed.count j + u.hand j)
    (h7 : ∀ k, k ≠ i → u.holds ≠ some k ∧ u'.holds ≠ some k) (h8 : ∀ k, k ≠ i → u ≠ .signal k)
    (h9 : ∀ k, u'.idx = some k → k = i) (h10 : QInv s' i q') : Inv s' := by
  have hl : s'.qs.length = s.qs.length := by rw [h1, List.length_set]
  have hg : s.dtor ≠ .gone := fun c => hi ((h.gone c).2.1 u (List.mem_of_getElem? hu))
  have hil := (List.getElem?_eq_some_iff.mp hq).1
  refine ⟨?_, ?_, by rw [h3, hl]; exact h.dlt, ?_,
    by rw [h3]; exact fun c => absurd c hg, by rw [h3, h5]; exact h.live⟩
  · intro k x hk
    rw [h1] at hk
    rcases getset hq hk with ⟨a, b⟩ | ⟨a, b⟩
    · subst a; subst b; exact h10
    · refine (h.q k x b).frame ?_ (by rw [h3]) ?_ (by unfold St.shutdown; rw [h3]; exact id)
        (by unfold St.shutdown; rw [h3, hl]; exact (h.q k x b).down)
      · intro v
        rw [h2]
        rw [getElem?_set_of hu]
        by_cases c : v = t
        · subst c
          rw [if_pos rfl]
          constructor
          · rintro ⟨y, hy, hy2⟩
            injection hy with hy; subst hy; exact absurd hy2 (h7 k a).2
          · rintro ⟨y, hy, hy2⟩
            rw [hu] at hy; injection hy with hy; subst hy; exact absurd hy2 (h7 k a).1
        · rw [if_neg c]
      · rintro ⟨v, hv⟩
        refine ⟨v, ?_⟩
        rw [h2, getElem?_set_of hu, if_neg]
        · exact hv
        · rintro rfl
          rw [hu] at hv; injection hv with hv; exact h8 k a hv
  · intro v y k hv hy
    rw [h2] at hv
    rw [hl]
    rcases getset hu hv with ⟨a, b⟩ | ⟨a, b⟩
    · subst b; rw [h9 k hy]; exact hil
    · exact h.idx v y k b hy
  · intro j
    rw [h4, h1, h2, h.cons j]
    have e1 := sum_set (fun q : Q => q.pushed.count j) s.qs i q' _ hq
    have e2 := sum_set (Sub.hand j) s.subs t u' _ hu
    have e3 := h6 j
    omega

/-- Queue `i` and the destructor change. -/
theorem Inv.dt {s s' : St} (h : Inv s) {i : Nat} {q q' : Q} (hq : s.qs[i]? = some q)
    (h1 : s'.qs = s.qs.set i q') (h2 : s'.subs = s.subs) (h4 : s'.submitted = s.submitted)
    (h5 : s'.destroyed = s.destroyed) (h6 : q'.pushed = q.pushed)
    (h7 : ∀ k, k ≠ i → s.dtor.holds ≠ some k ∧ s'.dtor.holds ≠ some k)
    (h8 : s.dtor ≠ .live) (h9 : s'.dtor ≠ .live) (hg : s.dtor ≠ .gone) (hg' : s'.dtor ≠ .gone)
    (h11 : ∀ k, k ≠ i → k < s.qs.length → s.dtor.next s.qs.length ≤ k → s'.dtor.next s.qs.length ≤ k)
    (h12 : ∀ k, s'.dtor = .lock k ∨ s'.dtor = .signal k ∨ s'.dtor = .unlock k → k < s.qs.length)
    (h10 : QInv s' i q') : Inv s' := by
  have hl : s'.qs.length = s.qs.length := by rw [h1, List.length_set]
  refine ⟨?_, by rw [h2, hl]; exact h.idx, by rw [hl]; exact h12, ?_, fun c => absurd c hg',
    fun _ => by rw [h5]; exact h.live hg⟩
  · intro k x hk
    rw [h1] at hk
    rcases getset hq hk with ⟨a, b⟩ | ⟨a, b⟩
    · subst a; subst b; exact h10
    · refine (h.q k x b).frame (by rw [h2]; exact fun _ => Iff.rfl) ?_ (by rw [h2]; exact id) (fun _ => h9) ?_
      · constructor
        · intro c; exact absurd c (h7 k a).2
        · intro c; exact absurd c (h7 k a).1
      · intro c _
        rw [hl]
        exact h11 k a (List.getElem?_eq_some_iff.mp b).1 ((h.q k x b).down c h8)
  · intro j
    rw [h4, h1, h2, h.cons j]
    have := sum_set (fun q : Q => q.pushed.count j) s.qs i q' _ hq
    simp only [h6] at this
    omega

end Pool
end Rpp
