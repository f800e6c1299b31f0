import Verif.Model.Promise
import Verif.Proof.Flag

namespace Rpp
namespace Flag

/-- The thread an event belongs to. -/
def Ev.tid : Ev → Nat
  | .block t | .signal t | .ready t | .go t | .spurious t | .intr t => t

theorem step_other {s s' : St} {e : Ev} (h : step s e = .ok s') (t : Nat) (ht : e.tid ≠ t) :
    s'.thr[t]? = s.thr[t]? ∨ s'.thr[t]? = s.thr[t]?.map wakeUp := by
  have ht' : ¬ t = e.tid := fun c => ht c.symm
  cases e <;> unfold step at h <;> dsimp only at h <;> (repeat' split at h) <;> cases h <;>
    first
    | exact .inl rfl
    | (left; dsimp only [Ev.tid] at *; rw [getElem?_set_of (by assumption), if_neg ht'])
    | (right; dsimp only [Ev.tid] at *; rw [List.getElem?_map, getElem?_set_of (by assumption), if_neg ht'])

end Flag

namespace Promise
open Flag (Pc)

/-- Where a thread is in the flag's operations, given where it is in the promise's. -/
def cor : Role → Pc → Prop
  | .signalling, p => p = .wake
  | .blocking, p => p = .load ∨ p = .wait ∨ p = .asleep
  | _, p => p = .idle

theorem cor_wake {r : Role} {p : Pc} (h : cor r p) : cor r (Flag.wakeUp p) := by
  cases r <;> simp only [cor] at * <;> (try (subst h; rfl))
  rcases h with rfl | rfl | rfl <;> simp [Flag.wakeUp]

/-- What is in the slot and what was returned. -/
inductive Got (plain : Bool) (v : Nat) : Slot → List Slot → Prop where
  | unset : Got plain v .unset []
  | full : Got plain v (.full v) []
  | plain (k : Nat) : plain = true → Got plain v (.full v) (List.replicate k (.full v))
  | moved (k : Nat) : plain = false → Got plain v .moved (.full v :: List.replicate k .moved)

/-- The invariant. -/
structure Inv (plain : Bool) (v : Nat) (s : St) : Prop where
  fi : Flag.Inv s.flag
  co : ∀ (t : Nat) (r : Role), s.role[t]? = some r → ∃ p, s.flag.thr[t]? = some p ∧ cor r p
  v1 : s.flag.value = true → s.slot ≠ .unset
  tk : ∀ t : Nat, s.role[t]? = some .take → s.flag.value = true
  st : ∀ (t : Nat) (w : Nat), s.role[t]? = some (.store w) → t = 0 ∧ w = v ∧ s.slot = .unset
  sg : ∀ t : Nat, s.role[t]? = some .signal → s.slot ≠ .unset
  g : Got plain v s.slot s.got
  z : s.role[0]? = some (.store v) ∨ s.role[0]? = some .signal ∨ s.role[0]? = some .signalling ∨
    (s.role[0]? = some .done ∧ 0 < s.flag.completed)

theorem ok_inv {s s1 : Flag.St} {e : Flag.Ev} (hc : Flag.Calm e) (h : Flag.Inv s)
    (h1 : Flag.step s e = .ok s1) : Flag.Inv s1 := by
  obtain ⟨s2, h2, h3⟩ := Flag.step_inv s e hc h
  rw [h1] at h2; cases h2; exact h3

/-- The correspondence after a step of thread `t` to role `r`. -/
theorem co_step {s : St} {f : Flag.St} {e : Flag.Ev} {t : Nat} {r0 r : Role}
    (hco : ∀ (t : Nat) (r : Role), s.role[t]? = some r → ∃ p, s.flag.thr[t]? = some p ∧ cor r p)
    (hf : Flag.step s.flag e = .ok f) (he : e.tid = t) (ht : s.role[t]? = some r0)
    (hr : ∃ p, f.thr[t]? = some p ∧ cor r p) :
    ∀ (u : Nat) (q : Role), (s.role.set t r)[u]? = some q → ∃ p, f.thr[u]? = some p ∧ cor q p := by
  intro u q hu
  rw [getElem?_set_of ht] at hu
  split at hu
  · rename_i c; subst c
    injection hu with hu; subst hu; exact hr
  · rename_i c
    obtain ⟨p, hp, hc⟩ := hco u q hu
    rcases Flag.step_other hf u (by rw [he]; exact fun d => c d.symm) with h | h
    · exact ⟨p, by rw [h]; exact hp, hc⟩
    · exact ⟨Flag.wakeUp p, by rw [h, hp]; rfl, cor_wake hc⟩

theorem value_mono {s s' : Flag.St} {e : Flag.Ev} (h : Flag.step s e = .ok s') (hv : s.value = true) :
    s'.value = true := by
  cases e <;> unfold Flag.step at h <;> dsimp only at h <;> (repeat' split at h) <;> cases h <;>
    first | exact hv | rfl

theorem value_same {s s' : Flag.St} {e : Flag.Ev} (h : Flag.step s e = .ok s') (he : ∀ t, e ≠ .signal t) :
    s'.value = s.value := by
  cases e <;> unfold Flag.step at h <;> dsimp only at h <;> (repeat' split at h) <;> cases h <;>
    first | rfl | exact absurd rfl (he _)

theorem z_keep {s : St} {f : Flag.St} {t v : Nat} {r0 r : Role} (ht : s.role[t]? = some r0) (h0 : t ≠ 0)
    (hf : s.flag.completed ≤ f.completed)
    (hz : s.role[0]? = some (.store v) ∨ s.role[0]? = some .signal ∨ s.role[0]? = some .signalling ∨
    (s.role[0]? = some .done ∧ 0 < s.flag.completed)) :
    (s.role.set t r)[0]? = some (.store v) ∨ (s.role.set t r)[0]? = some .signal ∨
      (s.role.set t r)[0]? = some .signalling ∨ ((s.role.set t r)[0]? = some .done ∧ 0 < f.completed) := by
  rw [getElem?_set_of ht, if_neg (fun c => h0 c.symm)]
  rcases hz with h | h | h | h
  · exact .inl h
  · exact .inr (.inl h)
  · exact .inr (.inr (.inl h))
  · exact .inr (.inr (.inr ⟨h.1, by omega⟩))

theorem set_role {s : St} {t : Nat} {r0 r : Role} (ht : s.role[t]? = some r0) {u : Nat} {q : Role}
    (h : (s.role.set t r)[u]? = some q) : (u = t ∧ q = r) ∨ (u ≠ t ∧ s.role[u]? = some q) := by
  rw [getElem?_set_of ht] at h
  split at h
  · rename_i c; injection h with h; exact .inl ⟨c, h.symm⟩
  · rename_i c; exact .inr ⟨c, h⟩

theorem step_inv (plain : Bool) (v : Nat) (s : St) (e : Ev) (h : Inv plain v s) :
    ∃ s', step plain s e = .ok s' ∧ Inv plain v s' := by
  cases e with
  | spurious t =>
    obtain ⟨f, h1, h2⟩ := Flag.step_inv s.flag (.spurious t) trivial h.fi
    refine ⟨{ s with flag := f }, by unfold step; dsimp only; rw [h1]; rfl, ?_⟩
    have hv := value_same h1 (by simp)
    have hcm := Flag.completed_step _ _ _ h1
    refine ⟨h2, ?_, ?_, ?_, h.st, h.sg, h.g, ?_⟩
    · intro u r hu
      obtain ⟨p, hp, hc⟩ := h.co u r hu
      by_cases e : t = u
      · subst e
        unfold Flag.step at h1; dsimp only at h1
        split at h1
        · rename_i ha
          cases h1
          refine ⟨.load, by dsimp only; rw [getElem?_set_of ha, if_pos rfl], ?_⟩
          rw [ha] at hp; injection hp with hp; subst hp
          cases r <;> simp [cor] at hc ⊢
        · cases h1; exact ⟨p, hp, hc⟩
      · rcases Flag.step_other h1 u e with h3 | h3
        · exact ⟨p, by dsimp only; rw [h3]; exact hp, hc⟩
        · exact ⟨Flag.wakeUp p, by dsimp only; rw [h3, hp]; rfl, cor_wake hc⟩
    · dsimp only; rw [hv]; exact h.v1
    · dsimp only; rw [hv]; exact h.tk
    · rcases h.z with a | a | a | a
      · exact .inl a
      · exact .inr (.inl a)
      · exact .inr (.inr (.inl a))
      · exact .inr (.inr (.inr ⟨a.1, by dsimp only; omega⟩))
  | block t =>
    unfold step; dsimp only
    by_cases hc : s.role[t]? = some .out ∨ (t ≠ 0 ∧ s.role[t]? = some .done)
    · rw [if_pos hc]
      obtain ⟨f, h1, h2⟩ := Flag.step_inv s.flag (.block t) trivial h.fi
      rw [h1]
      refine ⟨_, rfl, ?_⟩
      have hv := value_same h1 (by simp)
      have hcm := Flag.completed_step _ _ _ h1
      obtain ⟨r0, hr0, hidle, h0⟩ : ∃ r0, s.role[t]? = some r0 ∧ s.flag.thr[t]? = some .idle ∧ t ≠ 0 := by
        rcases hc with a | a
        · obtain ⟨p, hp, hcor⟩ := h.co t _ a
          simp only [cor] at hcor; subst hcor
          refine ⟨_, a, hp, ?_⟩
          rintro rfl
          rcases h.z with b | b | b | b
          · rw [a] at b; cases b
          · rw [a] at b; cases b
          · rw [a] at b; cases b
          · have b := b.1; rw [a] at b; cases b
        · obtain ⟨p, hp, hcor⟩ := h.co t _ a.2
          simp only [cor] at hcor; subst hcor
          exact ⟨_, a.2, hp, a.1⟩
      have hload : f.thr[t]? = some .load := by
        unfold Flag.step at h1; dsimp only at h1
        rw [if_pos hidle] at h1; cases h1
        dsimp only; rw [getElem?_set_of hidle, if_pos rfl]
      refine ⟨h2, co_step h.co h1 rfl hr0 ⟨_, hload, .inl rfl⟩, by dsimp only; rw [hv]; exact h.v1,
        ?_, ?_, ?_, h.g, z_keep hr0 h0 hcm h.z⟩
      · dsimp only
        intro u hu
        rw [hv]
        rcases set_role hr0 hu with ⟨_, b⟩ | ⟨_, b⟩
        · cases b
        · exact h.tk u b
      · intro u w hu
        rcases set_role hr0 hu with ⟨_, b⟩ | ⟨_, b⟩
        · cases b
        · exact h.st u w b
      · intro u hu
        rcases set_role hr0 hu with ⟨_, b⟩ | ⟨_, b⟩
        · cases b
        · exact h.sg u b
    · rw [if_neg hc]; exact ⟨s, rfl, h⟩
  | go t =>
    unfold step; dsimp only
    split
    · -- store
      rename_i w hr
      obtain ⟨h0, hw, hsl⟩ := h.st t w hr
      subst h0; subst hw
      have hg : s.got = [] := by have := h.g; rw [hsl] at this; generalize s.got = x at this ⊢; cases this; rfl
      obtain ⟨p, hp, hcor⟩ := h.co 0 _ hr
      refine ⟨_, rfl, h.fi, ?_, by simp, ?_, ?_, by simp, ?_, ?_⟩
      · intro u q hu
        rcases set_role hr hu with ⟨a, b⟩ | ⟨_, b⟩
        · subst a; subst b; exact ⟨p, hp, hcor⟩
        · exact h.co u q b
      · intro u hu
        rcases set_role hr hu with ⟨_, b⟩ | ⟨_, b⟩
        · cases b
        · exact h.tk u b
      · intro u x hu
        rcases set_role hr hu with ⟨_, b⟩ | ⟨a, b⟩
        · cases b
        · exact absurd (h.st u x b).1 a
      · dsimp only; rw [hg]; exact .full
      · right; left; dsimp only; rw [getElem?_set_of hr, if_pos rfl]
    · -- signal
      rename_i hr
      obtain ⟨f, h1, h2⟩ := Flag.step_inv s.flag (.signal t) trivial h.fi
      rw [h1]
      refine ⟨_, rfl, ?_⟩
      have hcm := Flag.completed_step _ _ _ h1
      obtain ⟨p, hp, hcor⟩ := h.co t _ hr
      simp only [cor] at hcor; subst hcor
      have hwk : f.thr[t]? = some .wake := by
        unfold Flag.step at h1; dsimp only at h1
        rw [if_pos hp] at h1; cases h1
        dsimp only; rw [getElem?_set_of hp, if_pos rfl]
      refine ⟨h2, co_step h.co h1 rfl hr ⟨_, hwk, rfl⟩, fun _ => h.sg t hr, ?_, ?_, ?_, h.g, ?_⟩
      · intro u hu
        rcases set_role hr hu with ⟨_, b⟩ | ⟨_, b⟩
        · cases b
        · exact value_mono h1 (h.tk u b)
      · intro u w hu
        rcases set_role hr hu with ⟨_, b⟩ | ⟨_, b⟩
        · cases b
        · exact h.st u w b
      · intro u hu
        rcases set_role hr hu with ⟨_, b⟩ | ⟨_, b⟩
        · cases b
        · exact h.sg u b
      · by_cases h0 : t = 0
        · subst h0
          right; right; left; dsimp only; rw [getElem?_set_of hr, if_pos rfl]
        · exact z_keep hr h0 hcm h.z
    · -- signalling
      rename_i hr
      obtain ⟨f, h1, h2⟩ := Flag.step_inv s.flag (.go t) trivial h.fi
      rw [h1]
      refine ⟨_, rfl, ?_⟩
      have hcm := Flag.completed_step _ _ _ h1
      obtain ⟨p, hp, hcor⟩ := h.co t _ hr
      simp only [cor] at hcor; subst hcor
      have hx : f.thr[t]? = some .idle ∧ f.completed = s.flag.completed + 1 := by
        unfold Flag.step at h1; dsimp only at h1
        rw [hp] at h1; dsimp only at h1; cases h1
        refine ⟨?_, rfl⟩
        dsimp only; rw [List.getElem?_map, getElem?_set_of hp, if_pos rfl]; rfl
      have hv := value_same h1 (by simp)
      refine ⟨h2, co_step h.co h1 rfl hr ⟨_, hx.1, rfl⟩, by dsimp only; rw [hv]; exact h.v1, ?_, ?_, ?_,
        h.g, ?_⟩
      · intro u hu
        rcases set_role hr hu with ⟨_, b⟩ | ⟨_, b⟩
        · cases b
        · exact value_mono h1 (h.tk u b)
      · intro u w hu
        rcases set_role hr hu with ⟨_, b⟩ | ⟨_, b⟩
        · cases b
        · exact h.st u w b
      · intro u hu
        rcases set_role hr hu with ⟨_, b⟩ | ⟨_, b⟩
        · cases b
        · exact h.sg u b
      · by_cases h0 : t = 0
        · subst h0
          right; right; right; dsimp only; rw [getElem?_set_of hr, if_pos rfl]
          exact ⟨rfl, by omega⟩
        · exact z_keep hr h0 hcm h.z
    · -- blocking
      rename_i hr
      obtain ⟨f, h1, h2⟩ := Flag.step_inv s.flag (.go t) trivial h.fi
      rw [h1]
      refine ⟨_, rfl, ?_⟩
      have hcm := Flag.completed_step _ _ _ h1
      have hv := value_same h1 (by simp)
      obtain ⟨p, hp, hcor⟩ := h.co t _ hr
      have h0 : t ≠ 0 := by
        rintro rfl
        rcases h.z with b | b | b | b
        · rw [hr] at b; cases b
        · rw [hr] at b; cases b
        · rw [hr] at b; cases b
        · have b := b.1; rw [hr] at b; cases b
      have hx : (f.thr[t]? = some .idle ∧ s.flag.value = true) ∨
          ∃ p, f.thr[t]? = some p ∧ cor .blocking p ∧ p ≠ .idle := by
        unfold Flag.step at h1; dsimp only at h1
        rw [hp] at h1
        simp only [cor] at hcor
        rcases hcor with rfl | rfl | rfl
        · dsimp only at h1
          by_cases c : s.flag.value = true
          · rw [if_pos c] at h1; cases h1
            left; exact ⟨by dsimp only; rw [getElem?_set_of hp, if_pos rfl], c⟩
          · rw [if_neg c] at h1; cases h1
            right; exact ⟨.wait, by dsimp only; rw [getElem?_set_of hp, if_pos rfl], .inr (.inl rfl), by simp⟩
        · dsimp only at h1
          cases h1
          right
          by_cases c : s.flag.value = true
          · exact ⟨.load, by dsimp only; rw [getElem?_set_of hp, if_pos rfl, if_pos c], .inl rfl, by simp⟩
          · exact ⟨.asleep, by dsimp only; rw [getElem?_set_of hp, if_pos rfl, if_neg c],
              .inr (.inr rfl), by simp⟩
        · dsimp only at h1
          cases h1
          right; exact ⟨.asleep, hp, .inr (.inr rfl), by simp⟩
      have hcor2 : ∃ p, f.thr[t]? = some p ∧
          cor (if f.thr[t]? = some .idle then .take else .blocking) p := by
        rcases hx with ⟨a, _⟩ | ⟨p, a, b, c⟩
        · rw [if_pos a]; exact ⟨_, a, rfl⟩
        · rw [if_neg (by rw [a]; simpa using c)]; exact ⟨p, a, b⟩
      refine ⟨h2, co_step h.co h1 rfl hr hcor2, by dsimp only; rw [hv]; exact h.v1, ?_, ?_, ?_,
        h.g, z_keep hr h0 hcm h.z⟩
      · intro u hu
        rcases set_role hr hu with ⟨_, b⟩ | ⟨_, b⟩
        · rcases hx with ⟨_, a⟩ | ⟨p, a, _, c⟩
          · exact value_mono h1 a
          · rw [if_neg (by rw [a]; simpa using c)] at b; cases b
        · exact value_mono h1 (h.tk u b)
      · intro u w hu
        rcases set_role hr hu with ⟨_, b⟩ | ⟨_, b⟩
        · split at b <;> cases b
        · exact h.st u w b
      · intro u hu
        rcases set_role hr hu with ⟨_, b⟩ | ⟨_, b⟩
        · split at b <;> cases b
        · exact h.sg u b
    · -- take
      rename_i hr
      have hval := h.tk t hr
      have hns := h.v1 hval
      obtain ⟨p, hp, hcor⟩ := h.co t _ hr
      have h0 : t ≠ 0 := by
        rintro rfl
        rcases h.z with b | b | b | b
        · rw [hr] at b; cases b
        · rw [hr] at b; cases b
        · rw [hr] at b; cases b
        · have b := b.1; rw [hr] at b; cases b
      have hnew : (if plain then s.slot else .moved) ≠ Slot.unset := by
        cases plain <;> simp [hns]
      refine ⟨_, rfl, h.fi, ?_, fun _ => hnew, ?_, ?_, ?_, ?_, z_keep hr h0 (Nat.le_refl _) h.z⟩
      · intro u q hu
        rcases set_role hr hu with ⟨a, b⟩ | ⟨_, b⟩
        · subst a; subst b; exact ⟨p, hp, hcor⟩
        · exact h.co u q b
      · intro u hu
        rcases set_role hr hu with ⟨_, b⟩ | ⟨_, b⟩
        · cases b
        · exact h.tk u b
      · intro u w hu
        rcases set_role hr hu with ⟨_, b⟩ | ⟨_, b⟩
        · cases b
        · exact absurd (h.st u w b).2.2 hns
      · intro u hu; exact hnew
      · dsimp only
        have hg := h.g
        generalize s.slot = sl at *
        generalize s.got = gt at *
        cases hg with
        | unset => exact absurd rfl hns
        | full =>
          cases plain with
          | true => exact .plain 1 rfl
          | false => exact .moved 0 rfl
        | plain k hk =>
          subst hk
          simp only [if_true]
          rw [← List.replicate_succ']
          exact .plain _ rfl
        | moved k hk =>
          subst hk
          simp only [Bool.false_eq_true, if_false]
          rw [List.cons_append, ← List.replicate_succ']
          exact .moved _ rfl
    · exact ⟨s, rfl, h⟩

theorem init_inv (plain : Bool) (n v : Nat) : Inv plain v (St.init n v) := by
  have hco : ∀ (t : Nat) (r : Role), (St.init n v).role[t]? = some r →
      (t = 0 ∧ r = .store v) ∨ (r = .out) := by
    intro t r h
    cases t with
    | zero => simp [St.init] at h; exact .inl ⟨rfl, h.symm⟩
    | succ t => simp [St.init, List.getElem?_replicate] at h; exact .inr h.2.symm
  refine ⟨Flag.init_inv _, ?_, by simp [St.init, Flag.St.init], ?_, ?_, ?_, .unset, .inl (by simp [St.init])⟩
  · intro t r h
    have hlt := (List.getElem?_eq_some_iff.mp h).1
    simp [St.init] at hlt
    refine ⟨.idle, ?_, ?_⟩
    · simp [St.init, Flag.St.init, List.getElem?_replicate, hlt]
    · rcases hco t r h with ⟨_, rfl⟩ | rfl <;> rfl
  · intro t h
    rcases hco t _ h with ⟨_, c⟩ | c <;> cases c
  · intro t w h
    rcases hco t _ h with ⟨a, c⟩ | c
    · injection c with c; exact ⟨a, c, rfl⟩
    · cases c
  · intro t h
    rcases hco t _ h with ⟨_, c⟩ | c <;> cases c

/-- Steps thread `t` has left in `block` when the flag was signalled. -/
def left (t : Nat) (s : St) : Nat := match s.role[t]? with
  | some .blocking => Flag.left t s.flag + 1
  | some .take => 1
  | _ => 0

/-- The promise was filled. -/
def Filled (s : St) : Prop := 0 < s.flag.completed

theorem left_mono {t : Nat} {s s' : St} (h1 : s'.role[t]? = s.role[t]?)
    (h2 : Flag.left t s'.flag ≤ Flag.left t s.flag) : left t s' ≤ left t s := by
  unfold left
  rw [h1]
  split
  · omega
  · omega
  · omega

theorem left_zero {t : Nat} {s : St} {r : Role} (h : s.role[t]? = some r) (h1 : r ≠ .blocking)
    (h2 : r ≠ .take) : left t s = 0 := by
  unfold left
  rw [h]
  split
  · injection (by assumption : some r = some Role.blocking) with c; exact absurd c h1
  · injection (by assumption : some r = some Role.take) with c; exact absurd c h2
  · rfl

theorem flag_left {f f' : Flag.St} {e : Flag.Ev} {t : Nat} (hi : Flag.Inv f) (hc : 0 < f.completed)
    (h : Flag.step f e = .ok f') (he : Flag.Calm e) (hb : e ≠ .block t) :
    Flag.left t f' ≤ Flag.left t f := by
  have := Flag.left_step t f f' e ⟨he, hb⟩ hi hc h
  omega

theorem left_step (plain : Bool) (v t : Nat) (s s' : St) (e : Ev) (he : e ≠ .block t) (hi : Inv plain v s)
    (hc : Filled s) (h : step plain s e = .ok s') :
    left t s' ≤ left t s - (if e == .go t then 1 else 0) := by
  cases e with
  | spurious u =>
    have hb : (Ev.spurious u == Ev.go t) = false := by simp
    rw [hb, if_neg (by simp), Nat.sub_zero]
    unfold step at h; dsimp only at h
    cases h1 : Flag.step s.flag (.spurious u) with
    | error x => rw [h1] at h; cases h
    | ok f =>
      rw [h1] at h; cases h
      exact left_mono rfl (flag_left hi.fi hc h1 trivial (by simp))
  | block u =>
    have hb : (Ev.block u == Ev.go t) = false := by simp
    rw [hb, if_neg (by simp), Nat.sub_zero]
    have hut : u ≠ t := by rintro rfl; exact he rfl
    unfold step at h; dsimp only at h
    split at h
    · rename_i hr
      cases h1 : Flag.step s.flag (.block u) with
      | error x => rw [h1] at h; cases h
      | ok f =>
        rw [h1] at h; cases h
        refine left_mono ?_ (flag_left hi.fi hc h1 trivial (by simp [hut]))
        dsimp only
        rw [List.getElem?_set_ne hut]
    · cases h; omega
  | go u =>
    by_cases hut : u = t
    · subst hut
      rw [if_pos (by simp)]
      unfold step at h; dsimp only at h
      split at h
      · rename_i w hr
        cases h
        rw [left_zero (r := .signal) (by dsimp only; rw [getElem?_set_of hr, if_pos rfl]) (by simp) (by simp)]
        omega
      · rename_i hr
        cases h1 : Flag.step s.flag (.signal u) with
        | error x => rw [h1] at h; cases h
        | ok f =>
          rw [h1] at h; cases h
          rw [left_zero (r := .signalling) (by dsimp only; rw [getElem?_set_of hr, if_pos rfl]) (by simp)
            (by simp)]
          omega
      · rename_i hr
        cases h1 : Flag.step s.flag (.go u) with
        | error x => rw [h1] at h; cases h
        | ok f =>
          rw [h1] at h; cases h
          rw [left_zero (r := .done) (by dsimp only; rw [getElem?_set_of hr, if_pos rfl]) (by simp)
            (by simp)]
          omega
      · rename_i hr
        cases h1 : Flag.step s.flag (.go u) with
        | error x => rw [h1] at h; cases h
        | ok f =>
          rw [h1] at h; cases h
          have h2 := Flag.left_step u s.flag f (.go u) ⟨trivial, by simp⟩ hi.fi hc h1
          rw [if_pos (by simp)] at h2
          have h3 : 1 ≤ Flag.left u s.flag := by
            obtain ⟨p, hp, hcor⟩ := hi.co u _ hr
            unfold Flag.left
            rw [hp]
            simp only [cor] at hcor
            rcases hcor with rfl | rfl | rfl <;> simp
          have h4 : left u s = Flag.left u s.flag + 1 := by unfold left; rw [hr]
          rw [h4]
          unfold left
          dsimp only
          rw [getElem?_set_of hr, if_pos rfl]
          by_cases hx : f.thr[u]? = some .idle
          · rw [if_pos hx]; dsimp only; omega
          · rw [if_neg hx]; dsimp only; omega
      · rename_i hr
        cases h
        rw [left_zero (r := .done) (by dsimp only; rw [getElem?_set_of hr, if_pos rfl]) (by simp) (by simp)]
        omega
      · rename_i h1 h2 h3 h4 h5
        cases h
        have : left u s = 0 := by
          unfold left
          split
          · exact absurd (by assumption) h4
          · exact absurd (by assumption) h5
          · rfl
        omega
    · have hb : (Ev.go u == Ev.go t) = false := by simp [hut]
      rw [hb, if_neg (by simp), Nat.sub_zero]
      unfold step at h; dsimp only at h
      split at h
      · cases h
        exact left_mono (by dsimp only; rw [List.getElem?_set_ne hut]) (Nat.le_refl _)
      · cases h1 : Flag.step s.flag (.signal u) with
        | error x => rw [h1] at h; cases h
        | ok f =>
          rw [h1] at h; cases h
          exact left_mono (by dsimp only; rw [List.getElem?_set_ne hut])
            (flag_left hi.fi hc h1 trivial (by simp))
      · cases h1 : Flag.step s.flag (.go u) with
        | error x => rw [h1] at h; cases h
        | ok f =>
          rw [h1] at h; cases h
          exact left_mono (by dsimp only; rw [List.getElem?_set_ne hut])
            (flag_left hi.fi hc h1 trivial (by simp))
      · cases h1 : Flag.step s.flag (.go u) with
        | error x => rw [h1] at h; cases h
        | ok f =>
          rw [h1] at h; cases h
          exact left_mono (by dsimp only; rw [List.getElem?_set_ne hut])
            (flag_left hi.fi hc h1 trivial (by simp))
      · cases h
        exact left_mono (by dsimp only; rw [List.getElem?_set_ne hut]) (Nat.le_refl _)
      · cases h; omega

theorem filled_step (plain : Bool) (s s' : St) (e : Ev) (hc : Filled s) (h : step plain s e = .ok s') :
    Filled s' := by
  unfold Filled at *
  unfold step at h
  cases e <;> dsimp only at h
  · split at h
    · cases h1 : Flag.step s.flag (.block (by assumption)) with
      | error x => rw [h1] at h; cases h
      | ok f =>
        rw [h1] at h; cases h
        exact Nat.lt_of_lt_of_le hc (Flag.completed_step _ _ _ h1)
    · cases h; exact hc
  · rename_i u
    split at h
    · cases h; exact hc
    · cases h1 : Flag.step s.flag (.signal u) with
      | error x => rw [h1] at h; cases h
      | ok f =>
        rw [h1] at h; cases h
        exact Nat.lt_of_lt_of_le hc (Flag.completed_step _ _ _ h1)
    · cases h1 : Flag.step s.flag (.go u) with
      | error x => rw [h1] at h; cases h
      | ok f =>
        rw [h1] at h; cases h
        exact Nat.lt_of_lt_of_le hc (Flag.completed_step _ _ _ h1)
    · cases h1 : Flag.step s.flag (.go u) with
      | error x => rw [h1] at h; cases h
      | ok f =>
        rw [h1] at h; cases h
        exact Nat.lt_of_lt_of_le hc (Flag.completed_step _ _ _ h1)
    · cases h; exact hc
    · cases h; exact hc
  · cases h1 : Flag.step s.flag (.spurious (by assumption)) with
    | error x => rw [h1] at h; cases h
    | ok f =>
      rw [h1] at h; cases h
      exact Nat.lt_of_lt_of_le hc (Flag.completed_step _ _ _ h1)

end Promise
end Rpp
