import Verif.Model.Own
import Verif.Proof.Vec
import Verif.Proof.Queue
import Verif.Proof.Heap
import Verif.Proof.MapMem

/-! Helper lemmas for arguments that refer into their container. -/

namespace Rpp

variable {α β γ : Type}

theorem run_bind_ok {m : M α β} {f : β → M α γ} {h h2 : Heap α} {c : γ} (e : (m >>= f) h = .ok (c, h2)) :
    ∃ b h1, m h = .ok (b, h1) ∧ f b h1 = .ok (c, h2) := by
  change (m h >>= fun p => f p.1 p.2) = _ at e
  cases hm : m h with
  | error er => rw [hm] at e; cases e
  | ok p => rw [hm] at e; exact ⟨p.1, p.2, rfl, e⟩

theorem run_bind_of {m : M α β} {f : β → M α γ} {h h1 : Heap α} {b : β} (e : m h = .ok (b, h1)) :
    (m >>= f) h = f b h1 := by
  change (m h >>= fun p => f p.1 p.2) = _
  rw [e]; rfl

theorem readAt_dead {id i : Nat} {h : Heap α} (e : h.blk id = none) : readAt (some id) i h = .error .ub := by
  simp only [readAt, e]

theorem run_bind_err {m : M α β} {f : β → M α γ} {h : Heap α} {e : Err} (he : m h = .error e) :
    (m >>= f) h = .error e := by
  change (m h >>= fun p => f p.1 p.2) = _
  rw [he]; rfl

theorem alloc_some {n : Nat} {h h' : Heap α} {p : Option Nat} (e : alloc n h = .ok (p, h')) (hn : n ≠ 0) :
    p = some h.next := by
  unfold alloc at e
  rw [if_neg hn] at e
  split at e
  · cases e
  · cases e; rfl

namespace Vec

theorem reserve_data {T : Traits} {n : Nat} {h h' : Heap α} {v v' : Vec} (e : reserve T v n h = .ok (v', h'))
    (hn : v.cap < n) : v'.data = some h.next := by
  unfold reserve at e
  rw [if_neg (by omega)] at e
  obtain ⟨p, h1, e1, e⟩ := run_bind_ok e
  obtain ⟨_, h2, _, e⟩ := run_bind_ok e
  obtain ⟨_, h3, _, e⟩ := run_bind_ok e
  cases e
  exact alloc_some e1 (by omega)

/-- After `grow` the old buffer is gone. -/
theorem grow_dead {T : Traits} {h h' : Heap α} {v v' : Vec} {l : List α} {id : Nat} (hw : h.WF)
    (r : Rep T h v l) (e : grow T v h = .ok (v', h')) (hd : v.data = some id) : h'.blk id = none := by
  have hid : id < h.next := by
    have := r.2
    rw [hd] at this
    exact this.1
  have hp : v'.data = some h.next := reserve_data e (by split <;> omega)
  have hg := wp_grow (O := True) hw r (fun _ => trivial)
  unfold wp at hg
  rw [e] at hg
  rcases hg.2.1.own with e' | ⟨_, e'⟩
  · rw [hp, hd] at e'; cases e'; omega
  · exact e' id hd

end Vec

namespace Queue

theorem reserve_data {T : Traits} {n : Nat} {h h' : Heap α} {v v' : Queue} (e : reserve T v n h = .ok (v', h'))
    (hn : v.cap < n) : v'.data = some h.next := by
  unfold reserve at e
  rw [if_neg (by omega)] at e
  obtain ⟨p, h1, e1, e⟩ := run_bind_ok e
  obtain ⟨_, h2, _, e⟩ := run_bind_ok e
  obtain ⟨_, h3, _, e⟩ := run_bind_ok e
  cases e
  exact alloc_some e1 (by omega)

theorem grow_dead {T : Traits} {h h' : Heap α} {v v' : Queue} {l : List α} {id : Nat} (hw : h.WF)
    (hm : h.lim ≤ 2 ^ 63) (r : Rep T h v l) (e : grow T v h = .ok (v', h')) (hd : v.data = some id) :
    h'.blk id = none := by
  have hid : id < h.next := by
    have := r.2
    rw [hd] at this
    exact this.1
  have hp : v'.data = some h.next := reserve_data e (by split <;> omega)
  have hg := wp_grow (O := True) hw hm r (fun _ => trivial)
  unfold wp at hg
  rw [e] at hg
  rcases hg.2.1.own with e' | ⟨_, e'⟩
  · rw [hp, hd] at e'; cases e'; omega
  · exact e' id hd

end Queue

theorem require_ok {b : Bool} {h : Heap α} (hb : b = true) : (require b : M α Unit) h = .ok ((), h) := by
  simp [require, hb]

end Rpp

namespace Rpp.MapMem
variable {K V α β : Type} [DecidableEq K]

theorem sbind_ok {m : S K V α} {f : α → S K V β} {l l2 : Ledger K V} {c : β} (e : (m >>= f) l = .ok (c, l2)) :
    ∃ b l1, m l = .ok (b, l1) ∧ f b l1 = .ok (c, l2) := by
  change (m l >>= fun p => f p.1 p.2) = _ at e
  cases hm : m l with
  | error er => rw [hm] at e; cases e
  | ok p => rw [hm] at e; exact ⟨p.1, p.2, rfl, e⟩

theorem sbind_of {m : S K V α} {f : α → S K V β} {l l1 : Ledger K V} {b : α} (e : m l = .ok (b, l1)) :
    (m >>= f) l = f b l1 := by
  change (m l >>= fun p => f p.1 p.2) = _
  rw [e]; rfl

theorem eraseLoopOwn_eq {f cap shift hash j : Nat} {tab : List (Cell K V)} {cj : Cell K V} {k : K}
    (hj : tab[j]? = some cj) (hk : keyOf cj = .ok k) : ∀ fuel idx dist,
    eraseLoopOwn f cap shift tab hash j fuel idx dist = eraseLoop f cap shift tab hash k fuel idx dist
  | 0, _, _ => rfl
  | fuel + 1, idx, dist => by
    unfold eraseLoopOwn eraseLoop
    rw [hj]
    cases tab[idx]? with
    | none => rfl
    | some c =>
      dsimp only
      rw [hk]
      simp only [eraseLoopOwn_eq hj hk fuel]

end Rpp.MapMem
