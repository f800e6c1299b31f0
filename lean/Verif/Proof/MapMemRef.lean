import Verif.Spec.MapMemRun
import Verif.Proof.MapMem
import Verif.Proof.MapRun

/-!
# The map in storage behaves as the map of `Model/Map`
-/

namespace Rpp.MapMem
open Rpp.Spec

variable {K V : Type} [DecidableEq K]

/-- A slot of `Model/Map` in storage. -/
def conc : Option (Slot K V) → Cell K V
  | none => ⟨0, none⟩
  | some s => ⟨s.hash, some (s.key, s.val)⟩

def NZ (t : List (Option (Slot K V))) : Prop := ∀ s, some s ∈ t → s.hash ≠ 0

/-- `x` is the same outcome as `r`, with related results. -/
def Rel {α β : Type} (x : Res (α × Ledger K V)) (r : Res β) (Q : β → α → Prop) : Prop :=
  match r with
  | .ok b => ∃ a l', x = .ok (a, l') ∧ Q b a
  | .error e => x = .error e

/-- `m` ends as `r` does, with related results. -/
def Sim {α β : Type} (m : S K V α) (r : Res β) (Q : β → α → Prop) : Prop := ∀ l, Rel (m l) r Q

section
variable {α β γ δ : Type}

theorem Sim.bind {m : S K V α} {r : Res β} {f : α → S K V γ} {g : β → Res δ} {P : β → α → Prop}
    {Q : δ → γ → Prop} (h : Sim m r P) (hf : ∀ b a, P b a → Sim (f a) (g b) Q) : Sim (m >>= f) (r >>= g) Q := by
  intro l
  have := h l
  show Rel ((StateT.bind m f) l) _ _
  unfold StateT.bind
  cases r with
  | error e =>
    have : m l = .error e := this
    rw [this]; exact rfl
  | ok b =>
    obtain ⟨a, l', e, p⟩ := this
    rw [e]
    exact hf b a p l'

/-- A step that only the storage has. -/
theorem Sim.pre {m : S K V α} {f : α → S K V γ} {r : Res δ} {P : α → Prop} {Q : δ → γ → Prop}
    (h : ∀ l, ∃ a l', m l = .ok (a, l') ∧ P a) (hf : ∀ a, P a → Sim (f a) r Q) : Sim (m >>= f) r Q := by
  intro l
  obtain ⟨a, l', e, p⟩ := h l
  show Rel ((StateT.bind m f) l) _ _
  unfold StateT.bind
  rw [e]
  exact hf a p l'

theorem Sim.post {m : S K V α} {f : α → S K V γ} {r : Res β} {P : β → α → Prop} {Q : β → γ → Prop}
    (h : Sim m r P) (hf : ∀ b a, P b a → ∀ l, ∃ c l', f a l = .ok (c, l') ∧ Q b c) : Sim (m >>= f) r Q := by
  intro l
  have := h l
  show Rel ((StateT.bind m f) l) _ _
  unfold StateT.bind
  cases r with
  | error e =>
    have : m l = .error e := this
    rw [this]; exact rfl
  | ok b =>
    obtain ⟨a, l', e, p⟩ := this
    rw [e]
    exact hf b a p l'

theorem Sim.ret {a : α} {b : β} {Q : β → α → Prop} (h : Q b a) : Sim (pure a : S K V α) (.ok b) Q :=
  fun l => ⟨a, l, rfl, h⟩

theorem Sim.err {e : Err} {Q : β → α → Prop} : Sim (fail e : S K V α) (.error e) Q := fun _ => rfl

theorem Sim.res {r : Res α} : Sim (pureRes r : S K V α) r (fun b a => b = a) := by
  intro l
  cases r with
  | error e => exact rfl
  | ok a => exact ⟨a, l, rfl, rfl⟩
end

theorem NZ.get {t : List (Option (Slot K V))} (h : NZ t) {i : Nat} {s : Slot K V} (e : t[i]? = some (some s)) :
    s.hash ≠ 0 := h s (List.mem_of_getElem? e)

theorem NZ.set {t : List (Option (Slot K V))} (h : NZ t) {i : Nat} {o : Option (Slot K V)}
    (ho : ∀ s, o = some s → s.hash ≠ 0) : NZ (t.set i o) := by
  intro s hs
  rcases List.mem_or_eq_of_mem_set hs with hs | hs
  · exact h s hs
  · exact ho s hs.symm

theorem dtor_conc {o : Option (Slot K V)} (ho : ∀ s, o = some s → s.hash ≠ 0) (l : Ledger K V) :
    ∃ l', dtor (conc o) l = .ok (⟨0, none⟩, l') := by
  cases o with
  | none => exact ⟨l, rfl⟩
  | some s => exact ⟨_, by unfold dtor conc; rw [if_pos (ho s rfl)]⟩

theorem moveCtor_conc {o : Option (Slot K V)} (ho : ∀ s, o = some s → s.hash ≠ 0) (l : Ledger K V) :
    moveCtor none (conc o) l = .ok ((conc o, ⟨0, none⟩), l) := by
  cases o with
  | none => rfl
  | some s => unfold moveCtor conc; rw [if_pos (ho s rfl)]

theorem assign_conc {o p : Option (Slot K V)} (ho : ∀ s, o = some s → s.hash ≠ 0)
    (hp : ∀ s, p = some s → s.hash ≠ 0) (l : Ledger K V) :
    ∃ a l', assign (conc o) (conc p) l = .ok (a, l') ∧ a = (conc p, ⟨0, none⟩) := by
  obtain ⟨l', e⟩ := dtor_conc ho l
  refine ⟨_, l', ?_, rfl⟩
  unfold assign
  simp only [bind, StateT.bind, e, Except.bind]
  exact moveCtor_conc hp l'

theorem swap_conc {o p : Option (Slot K V)} (ho : ∀ s, o = some s → s.hash ≠ 0)
    (hp : ∀ s, p = some s → s.hash ≠ 0) (l : Ledger K V) :
    ∃ a l', swap (conc o) (conc p) l = .ok (a, l') ∧ a = (conc p, conc o) := by
  refine ⟨_, l, ?_, rfl⟩
  have as0 : ∀ q : Option (Slot K V), (∀ s, q = some s → s.hash ≠ 0) →
      assign (⟨0, none⟩ : Cell K V) (conc q) l = .ok ((conc q, ⟨0, none⟩), l) := by
    intro q hq
    unfold assign
    simp only [bind, StateT.bind, dtor, ne_eq, not_true_eq_false, if_false, Except.bind]
    exact moveCtor_conc hq l
  unfold swap
  simp only [bind, StateT.bind, moveCtor_conc ho, Except.bind, as0 o ho, as0 p hp]
  rfl

theorem same_conc {s : Slot K V} {n : Nat} {k : K} :
    same (conc (some s)) n (.ok k) = .ok (decide (s.hash = n ∧ s.key = k)) := by
  unfold same conc
  dsimp only
  by_cases h : s.hash = n
  · rw [if_pos h]; simp [h, keyOf, bind, Except.bind, pure, Except.pure]
  · rw [if_neg h]; simp [h, pure, Except.pure]

theorem map_get {t : List (Option (Slot K V))} {i : Nat} {o : Option (Slot K V)} (e : t[i]? = some o) :
    (t.map conc)[i]? = some (conc o) := by rw [List.getElem?_map, e]; rfl

theorem map_get_none {t : List (Option (Slot K V))} {i : Nat} (e : t[i]? = none) :
    (t.map conc)[i]? = none := by rw [List.getElem?_map, e]; rfl

/-- Relation between the results of `insert_slot`. -/
def RIns (n : Nat) (b : List (Option (Slot K V)) × Nat) (a : List (Cell K V) × Cell K V × Nat) : Prop :=
  a = (b.1.map conc, ⟨0, none⟩, b.2) ∧ NZ b.1 ∧ b.1.length = n

theorem insertLoop_sim (cap shift : Nat) : ∀ (fuel : Nat) (tab : List (Option (Slot K V))) (slot : Slot K V)
    (idx dist : Nat) (pl : Option Nat), NZ tab → slot.hash ≠ 0 →
    Sim (insertLoop cap shift fuel (tab.map conc) (conc (some slot)) idx dist pl)
      (Map.insertLoop cap shift fuel tab slot idx dist pl) (RIns tab.length) := by
  intro fuel
  induction fuel with
  | zero => intros; exact fun _ => rfl
  | succ fuel ih =>
    intro tab slot idx dist pl hn h0
    have hs : ∀ s, some slot = some s → s.hash ≠ 0 := fun s h => by injection h with h; rw [← h]; exact h0
    unfold insertLoop Map.insertLoop
    cases e : tab[idx]? with
    | none => rw [map_get_none e]; exact fun _ => rfl
    | some o =>
      rw [map_get e]
      dsimp only
      cases o with
      | none =>
        rw [if_pos (show (conc (none : Option (Slot K V))).hash = 0 from rfl)]
        refine Sim.pre (assign_conc (by simp) hs) ?_
        rintro _ rfl
        refine Sim.ret ⟨?_, hn.set hs, by simp⟩
        dsimp only
        rw [List.map_set]
      | some s =>
        have hsz := hn.get e
        have hs' : ∀ t, some s = some t → t.hash ≠ 0 := fun t h => by injection h with h; rw [← h]; exact hsz
        rw [if_neg (show ¬ (conc (some s)).hash = 0 from hsz)]
        refine Sim.pre (P := fun b => b = decide (s.hash = slot.hash ∧ s.key = slot.key))
          (fun l => ⟨_, l, ?_, rfl⟩) ?_
        · unfold pureRes
          rw [show (conc (some slot)).hash = slot.hash from rfl,
            show keyOf (conc (some slot)) = .ok slot.key from rfl, same_conc]
          rfl
        rintro b rfl
        dsimp only
        by_cases hk : s.hash = slot.hash ∧ s.key = slot.key
        · rw [if_pos (by simpa using hk), if_pos hk]
          refine Sim.pre (assign_conc hs' hs) ?_
          rintro _ rfl
          refine Sim.ret ⟨?_, hn.set hs, by simp⟩
          dsimp only
          rw [List.map_set]
        · rw [if_neg (by simpa using hk), if_neg hk]
          refine Sim.bind (Sim.res (r := Map.shr s.hash shift)) ?_
          rintro hi _ rfl
          by_cases hd : Map.pdist cap hi idx < dist
          · rw [if_pos hd, if_pos hd]
            refine Sim.pre (swap_conc hs' hs) ?_
            rintro _ rfl
            have := ih (tab.set idx (some slot)) s (Map.nxt cap idx) (Map.pdist cap hi idx + 1)
              (some (pl.getD idx)) (hn.set hs) hsz
            rw [List.map_set] at this
            rw [List.length_set] at this
            exact this
          · rw [if_neg hd, if_neg hd]
            exact ih tab slot _ _ pl hn h0

theorem insert_slot_sim (fuel cap shift : Nat) (tab : List (Option (Slot K V))) (slot : Slot K V) (hn : NZ tab)
    (h0 : slot.hash ≠ 0) :
    Sim (insert_slot fuel cap shift (tab.map conc) (conc (some slot))) (Map.insert_slot fuel cap shift tab slot)
      (RIns tab.length) := by
  unfold insert_slot Map.insert_slot
  refine Sim.bind (Sim.res (r := Map.shr slot.hash shift)) ?_
  rintro i _ rfl
  exact insertLoop_sim cap shift fuel tab slot _ 0 none hn h0

theorem rehash_sim (fuel cap shift : Nat) : ∀ (old tab : List (Option (Slot K V))), NZ old → NZ tab →
    Sim (rehash fuel cap shift (old.map conc) (tab.map conc)) (Map.rehash fuel cap shift old tab)
      (fun b a => a.2 = b.map conc ∧ (∀ c ∈ a.1, c.data = none) ∧ NZ b ∧ b.length = tab.length) := by
  intro old
  induction old with
  | nil => intro tab _ hn; exact Sim.ret ⟨rfl, by simp, hn, rfl⟩
  | cons o old ih =>
    intro tab ho hn
    have ho' : NZ old := fun s hs => ho s (List.mem_cons_of_mem _ hs)
    rw [List.map_cons]
    cases o with
    | none =>
      unfold rehash Map.rehash
      rw [if_neg (show ¬ (conc (none : Option (Slot K V))).hash ≠ 0 from fun h => h rfl)]
      refine Sim.post (ih tab ho' hn) ?_
      rintro b ⟨o, t⟩ ⟨q1, q2, q3, q4⟩ l
      refine ⟨_, l, rfl, q1, ?_, q3, q4⟩
      intro c hc
      rcases List.mem_cons.mp hc with hc | hc
      · rw [hc]; rfl
      · exact q2 c hc
    | some s =>
      unfold rehash Map.rehash
      have h0 := ho s List.mem_cons_self
      rw [if_pos (show (conc (some s)).hash ≠ 0 from h0)]
      refine Sim.bind (insert_slot_sim fuel cap shift tab s hn h0) ?_
      rintro ⟨t, i⟩ _ ⟨rfl, r2, r3⟩
      dsimp only at r2 r3 ⊢
      refine Sim.post (ih t ho' r2) ?_
      rintro b ⟨o, t2⟩ ⟨q1, q2, q3, q4⟩ l
      refine ⟨_, l, rfl, q1, ?_, q3, by rw [q4, r3]⟩
      intro c hc
      rcases List.mem_cons.mp hc with hc | hc
      · rw [hc]
      · exact q2 c hc

/-- A map of `Model/Map` in storage. -/
def concM (m : Map K V) : LMap K V := ⟨m.data.map conc, m.cap, m.len, m.usable, m.shift⟩

structure G (m : Map K V) : Prop where
  nz : NZ m.data
  len : m.data.length = m.cap

/-- Relation between results that are maps. -/
def RM (b : Map K V) (a : LMap K V) : Prop := a = concM b ∧ G b

theorem nz_replicate (n : Nat) : NZ (List.replicate n (none : Option (Slot K V))) := by
  intro s hs; cases List.eq_of_mem_replicate hs

theorem map_replicate (n : Nat) :
    (List.replicate n (none : Option (Slot K V))).map conc = List.replicate n ⟨0, none⟩ := by
  rw [List.map_replicate]; rfl

theorem reserve_sim (lim : Nat) (m : Map K V) (n : Nat) (h : G m) :
    Sim (reserve plus2 lim (concM m) n) (Map.reserve lim m n) RM := by
  unfold reserve Map.reserve
  by_cases hn : n ≤ m.cap
  · rw [if_pos (show n ≤ (concM m).cap from hn), if_pos hn]; exact Sim.ret ⟨rfl, h⟩
  rw [if_neg (show ¬ n ≤ (concM m).cap from hn), if_neg hn]
  unfold allocZero Map.allocZero
  refine Sim.bind (P := fun b a => b = List.replicate n none ∧ a = List.replicate n ⟨0, none⟩) ?_ ?_
  · split
    · exact Sim.err
    · exact Sim.ret ⟨rfl, rfl⟩
  rintro _ _ ⟨rfl, rfl⟩
  dsimp only
  rw [← map_replicate]
  refine Sim.bind (rehash_sim (plus2 n) n _ m.data _ h.nz (nz_replicate n)) ?_
  rintro t ⟨o, t'⟩ ⟨q1, q2, q3, q4⟩
  dsimp only at q1 q2 q3 q4 ⊢
  subst q1
  refine Sim.pre (P := fun _ => True) (fun l => ⟨(), l, freeTab_ok q2 l, trivial⟩) ?_
  intro _ _
  refine Sim.ret ⟨rfl, q3, ?_⟩
  dsimp only
  rw [q4, List.length_replicate]

theorem insert_sim {H : K → Nat} (hH : ∀ k, H k ≠ 0) (lim : Nat) (m : Map K V) (k : K) (v : V) (h : G m) :
    Sim (insert plus2 H lim (concM m) k v) (Map.insert H lim m k v)
      (fun b a => a = (concM b.1, b.2) ∧ G b.1) := by
  unfold insert Map.insert
  refine Sim.bind (P := RM) ?_ ?_
  · by_cases hf : m.len = m.usable
    · have e : (if m.isFull then Map.grow lim m else pure m) = Map.grow lim m := if_pos (by simp [Map.isFull, hf])
      rw [if_pos (show (concM m).len = (concM m).usable from hf), e]
      exact reserve_sim lim m _ h
    · have e : (if m.isFull then Map.grow lim m else pure m) = .ok m := if_neg (by simp [Map.isFull, hf])
      rw [if_neg (show ¬ (concM m).len = (concM m).usable from hf), e]
      exact Sim.ret ⟨rfl, h⟩
  rintro m' _ ⟨rfl, h'⟩
  refine Sim.pre (P := fun c => c = conc (some ⟨H k, k, v⟩)) (fun l => ⟨_, _, rfl, rfl⟩) ?_
  rintro _ rfl
  refine Sim.bind (insert_slot_sim (m'.cap + 2) m'.cap m'.shift m'.data ⟨H k, k, v⟩ h'.nz (hH k)) ?_
  rintro ⟨t, i⟩ _ ⟨rfl, r2, r3⟩
  dsimp only at r2 r3 ⊢
  refine Sim.pre (P := fun c => c = ⟨0, none⟩) (fun l => ⟨_, l, rfl, rfl⟩) ?_
  rintro _ rfl
  refine Sim.pre (P := fun _ => True) (fun l => ⟨(), l, rfl, trivial⟩) ?_
  intro _ _
  exact Sim.ret ⟨rfl, r2, by dsimp only; rw [r3, h'.len]⟩

theorem findLoop_sim (cap shift : Nat) (tab : List (Option (Slot K V))) (hn : NZ tab) (hash : Nat) (key : K) :
    ∀ fuel idx dist, findLoop cap shift (tab.map conc) hash key fuel idx dist =
      Map.findLoop cap shift tab hash key fuel idx dist := by
  intro fuel
  induction fuel with
  | zero => intros; rfl
  | succ fuel ih =>
    intro idx dist
    unfold findLoop Map.findLoop
    cases e : tab[idx]? with
    | none => rw [map_get_none e]
    | some o =>
      rw [map_get e]
      dsimp only
      cases o with
      | none => rfl
      | some s =>
        rw [if_neg (show ¬ (conc (some s)).hash = 0 from hn.get e), same_conc]
        by_cases hk : s.hash = hash ∧ s.key = key
        · simp only [hk, and_self, decide_true, bind, Except.bind, if_true]; rfl
        · simp only [hk, decide_false, bind, Except.bind, if_false, Bool.false_eq_true]
          rw [show (conc (some s)).hash = s.hash from rfl]
          cases Map.shr s.hash shift with
          | error e => rfl
          | ok i =>
            dsimp only
            split
            · rfl
            · exact ih _ _

theorem find_sim (H : K → Nat) (m : Map K V) (h : G m) (k : K) : find plus2 H (concM m) k = Map.find H m k := by
  unfold find Map.find
  simp only [bind, Except.bind, concM]
  cases Map.shr (H k) m.shift with
  | error e => rfl
  | ok i => exact findLoop_sim m.cap m.shift m.data h.nz (H k) k (m.cap + 2) i 0

theorem valAt_sim (m : Map K V) (i : Nat) : valAt (concM m) i = Map.valAt m i := by
  unfold valAt Map.valAt concM
  dsimp only
  cases e : m.data[i]? with
  | none => rw [map_get_none e]
  | some o =>
    rw [map_get e]
    cases o <;> rfl

theorem try_get_sim (H : K → Nat) (m : Map K V) (h : G m) (k : K) :
    try_get plus2 H (concM m) k = Map.try_get H m k := by
  unfold try_get Map.try_get Map.isEmpty
  by_cases h0 : m.len = 0
  · rw [if_pos (show (concM m).len = 0 from h0)]; simp [h0]
  · rw [if_neg (show ¬ (concM m).len = 0 from h0)]
    simp only [h0, decide_false, Bool.false_eq_true, if_false, find_sim H m h, valAt_sim]
    rfl

theorem fixLoop_sim (cap shift : Nat) : ∀ (fuel : Nat) (tab : List (Option (Slot K V))) (idx : Nat), NZ tab →
    tab.length = cap → idx < cap →
    Sim (fixLoop cap shift fuel (tab.map conc) idx) (Map.fixLoop cap shift fuel tab idx)
      (fun b a => a = b.map conc ∧ NZ b ∧ b.length = cap) := by
  intro fuel
  induction fuel with
  | zero => intros; exact fun _ => rfl
  | succ fuel ih =>
    intro tab idx hn hl hi
    unfold fixLoop Map.fixLoop
    dsimp only
    generalize hnx : (if idx = cap - 1 then 0 else idx + 1) = next
    have hnl : next < cap := by subst hnx; split <;> omega
    obtain ⟨o, e⟩ : ∃ o, tab[next]? = some o := ⟨tab[next], by rw [List.getElem?_eq_getElem]⟩
    obtain ⟨q, eq⟩ : ∃ q, tab[idx]? = some q := ⟨tab[idx], by rw [List.getElem?_eq_getElem]⟩
    rw [map_get e, map_get eq, e]
    dsimp only
    have hq : ∀ s, q = some s → s.hash ≠ 0 := fun s h => hn.get (by rw [eq, h])
    cases o with
    | none =>
      rw [if_pos (show (conc (none : Option (Slot K V))).hash = 0 from rfl)]
      exact Sim.ret ⟨rfl, hn, hl⟩
    | some s =>
      have hsz := hn.get e
      have hs' : ∀ t, some s = some t → t.hash ≠ 0 := fun t h => by injection h with h; rw [← h]; exact hsz
      rw [if_neg (show ¬ (conc (some s)).hash = 0 from hsz)]
      refine Sim.bind (Sim.res (r := Map.shr s.hash shift)) ?_
      rintro ni _ rfl
      by_cases h1 : next = ni
      · rw [if_pos h1, if_pos h1]; exact Sim.ret ⟨rfl, hn, hl⟩
      rw [if_neg h1, if_neg h1]
      by_cases h2 : next = idx
      · rw [if_pos h2]
        refine Sim.pre (P := fun c => c = ⟨0, none⟩) (fun l => ?_) ?_
        · obtain ⟨l', e⟩ := dtor_conc hq l
          exact ⟨_, l', e, rfl⟩
        rintro _ rfl
        have := ih ((tab.set idx (some s)).set next none) next ((hn.set hs').set (by simp)) (by simpa using hl) hnl
        rw [h2, List.set_set, List.map_set] at this
        rw [h2, List.set_set]
        exact this
      · rw [if_neg h2]
        refine Sim.pre (assign_conc hq hs') ?_
        rintro _ rfl
        have := ih ((tab.set idx (some s)).set next none) next ((hn.set hs').set (by simp)) (by simpa using hl) hnl
        rw [List.map_set, List.map_set] at this
        exact this

theorem eraseLoop_sim (cap shift : Nat) (tab : List (Option (Slot K V))) (hn : NZ tab) (hl : tab.length = cap)
    (hash : Nat) (h0 : hash ≠ 0) (key : K) : ∀ fuel idx dist,
    Sim (eraseLoop (plus2 cap) cap shift (tab.map conc) hash key fuel idx dist)
      (Map.eraseLoop cap shift tab hash key fuel idx dist)
      (fun b a => a = b.map (List.map conc) ∧ ∀ t, b = some t → NZ t ∧ t.length = cap) := by
  intro fuel
  induction fuel with
  | zero => intros; exact fun _ => rfl
  | succ fuel ih =>
    intro idx dist
    unfold eraseLoop Map.eraseLoop
    cases e : tab[idx]? with
    | none => rw [map_get_none e]; exact fun _ => rfl
    | some o =>
      rw [map_get e]
      dsimp only
      have hi : idx < cap := by have := (List.getElem?_eq_some_iff.mp e).1; omega
      have ho : ∀ s, o = some s → s.hash ≠ 0 := fun s h => hn.get (by rw [e, h])
      have hsame : same (conc o) hash (.ok key) = .ok (o.any (fun s => decide (s.hash = hash ∧ s.key = key))) := by
        cases o with
        | none =>
          unfold same conc
          rw [if_neg (by exact fun h => h0 h.symm)]; rfl
        | some s => rw [same_conc]; rfl
      refine Sim.pre (P := fun b => b = o.any (fun s => decide (s.hash = hash ∧ s.key = key)))
        (fun l => ⟨_, l, by unfold pureRes; rw [hsame]; rfl, rfl⟩) ?_
      rintro _ rfl
      by_cases hk : o.any (fun s => decide (s.hash = hash ∧ s.key = key)) = true
      · rw [if_pos hk, if_pos hk]
        refine Sim.pre (P := fun c => c = conc none) (fun l => ?_) ?_
        · obtain ⟨l', e⟩ := dtor_conc ho l
          exact ⟨_, l', e, rfl⟩
        rintro _ rfl
        have := fixLoop_sim cap shift (cap + 2) (tab.set idx none) idx (hn.set (by simp)) (by simpa using hl) hi
        rw [List.map_set] at this
        refine Sim.bind this ?_
        rintro t _ ⟨rfl, q1, q2⟩
        refine Sim.ret ⟨rfl, ?_⟩
        intro t' ht
        injection ht with ht
        rw [← ht]; exact ⟨q1, q2⟩
      · rw [if_neg hk, if_neg hk]
        have hh : (conc o).hash = o.elim 0 Slot.hash := by cases o <;> rfl
        rw [hh]
        refine Sim.bind (Sim.res (r := Map.shr _ shift)) ?_
        rintro ki _ rfl
        split
        · exact Sim.ret ⟨rfl, by simp⟩
        · exact ih _ _

theorem try_erase_sim {H : K → Nat} (hH : ∀ k, H k ≠ 0) (m : Map K V) (h : G m) (k : K) :
    Sim (try_erase plus2 H (concM m) k) (Map.try_erase H m k) (fun b a => a = (concM b.1, b.2) ∧ G b.1) := by
  unfold try_erase Map.try_erase Map.isEmpty
  by_cases h0 : m.len = 0
  · rw [if_pos (show (concM m).len = 0 from h0), if_pos (by simpa using h0)]; exact Sim.ret ⟨rfl, h⟩
  rw [if_neg (show ¬ (concM m).len = 0 from h0), if_neg (by simpa using h0)]
  refine Sim.bind (Sim.res (r := Map.shr (H k) m.shift)) ?_
  rintro i _ rfl
  refine Sim.bind (eraseLoop_sim m.cap m.shift m.data h.nz h.len (H k) (hH k) k (m.cap + 2) _ 0) ?_
  rintro b _ ⟨rfl, q⟩
  cases b with
  | none => exact Sim.ret ⟨rfl, h⟩
  | some t => exact Sim.ret ⟨rfl, (q t rfl).1, (q t rfl).2⟩

theorem dtorAll_conc : ∀ (tab : List (Option (Slot K V))), NZ tab → ∀ l, ∃ a l', dtorAll (tab.map conc) l = .ok (a, l') ∧
    a = (List.replicate tab.length none).map conc := by
  intro tab
  induction tab with
  | nil => intro _ l; exact ⟨[], l, rfl, rfl⟩
  | cons o tab ih =>
    intro hn l
    obtain ⟨l1, e1⟩ := dtor_conc (o := o) (fun s h => hn s (by rw [h]; exact List.mem_cons_self)) l
    obtain ⟨a, l2, e2, ea⟩ := ih (fun s hs => hn s (List.mem_cons_of_mem _ hs)) l1
    refine ⟨⟨0, none⟩ :: a, l2, ?_, ?_⟩
    · rw [List.map_cons]
      unfold dtorAll
      simp only [bind, StateT.bind, e1, Except.bind, e2]
      rfl
    · rw [ea, List.length_cons, List.replicate_succ]; rfl

theorem clear_sim (m : Map K V) (h : G m) : Sim (clear (concM m)) (.ok m.clear) RM := by
  unfold clear
  refine Sim.pre (dtorAll_conc m.data h.nz) ?_
  rintro _ rfl
  refine Sim.ret ⟨?_, ?_, ?_⟩
  · unfold concM Map.clear; rw [h.len]
  · exact nz_replicate _
  · simp [Map.clear]

theorem assignAt_sim (H : K → Nat) (m : Map K V) (h : G m) (k : K) (v : V) :
    Sim (assignAt plus2 H (concM m) k v) (Map.assign H m k v) RM := by
  unfold assignAt Map.assign Map.isEmpty
  by_cases h0 : m.len = 0
  · rw [if_pos (show (concM m).len = 0 from h0), if_pos (by simpa using h0)]; exact fun _ => rfl
  rw [if_neg (show ¬ (concM m).len = 0 from h0), if_neg (by simpa using h0), find_sim H m h]
  refine Sim.bind (Sim.res (r := Map.find H m k)) ?_
  rintro r _ rfl
  cases r with
  | none => exact fun _ => rfl
  | some i =>
    dsimp only
    cases e : m.data[i]? with
    | none => rw [show (concM m).data = m.data.map conc from rfl, map_get_none e]; exact fun _ => rfl
    | some o =>
      rw [show (concM m).data = m.data.map conc from rfl, map_get e]
      cases o with
      | none => exact fun _ => rfl
      | some s =>
        dsimp only
        refine Sim.pre (P := fun c => c = conc (some { s with val := v })) (fun l => ⟨_, _, rfl, rfl⟩) ?_
        rintro _ rfl
        refine Sim.ret ⟨?_, ?_, ?_⟩
        · unfold concM; dsimp only; rw [List.map_set]
        · refine h.nz.set ?_
          intro t ht
          injection ht with ht
          rw [← ht]; show s.hash ≠ 0; exact h.nz.get e
        · simpa using h.len

theorem get_or_insert_sim {H : K → Nat} (hH : ∀ k, H k ≠ 0) (lim : Nat) (d : V) (m : Map K V) (h : G m) (k : K) :
    Sim (get_or_insert plus2 H lim d (concM m) k) (Map.get_or_insert H lim d m k)
      (fun b a => a = (concM b.1, b.2) ∧ G b.1) := by
  unfold get_or_insert Map.get_or_insert
  rw [try_get_sim H m h]
  refine Sim.bind (Sim.res (r := Map.try_get H m k)) ?_
  rintro r _ rfl
  cases r with
  | some v => exact Sim.ret ⟨rfl, h⟩
  | none =>
    refine Sim.bind (insert_sim hH lim m k d h) ?_
    rintro ⟨m', i⟩ _ ⟨rfl, h'⟩
    dsimp only at h' ⊢
    rw [valAt_sim]
    refine Sim.bind (Sim.res (r := Map.valAt m' i)) ?_
    rintro v _ rfl
    exact Sim.ret ⟨rfl, h'⟩

theorem skip_sim (m : Map K V) (h : G m) : ∀ n c, skip (concM m) n c = Map.skip m n c := by
  intro n
  induction n with
  | zero => intro c; rfl
  | succ n ih =>
    intro c
    unfold skip Map.skip
    rw [show (concM m).cap = m.cap from rfl, show (concM m).data = m.data.map conc from rfl]
    split
    · cases e : m.data[c]? with
      | none => rw [map_get_none e]
      | some o =>
        rw [map_get e]
        cases o with
        | none => exact ih _
        | some s => dsimp only; rw [if_neg (show ¬ (conc (some s)).hash = 0 from h.nz.get e)]
    · rfl

theorem iterLoop_sim (m : Map K V) (h : G m) : ∀ fuel c, iterLoop (concM m) fuel c = Map.iterLoop m fuel c := by
  intro fuel
  induction fuel with
  | zero => intro c; rfl
  | succ fuel ih =>
    intro c
    unfold iterLoop Map.iterLoop
    rw [show (concM m).cap = m.cap from rfl, show (concM m).data = m.data.map conc from rfl]
    split
    · rfl
    · cases e : m.data[c]? with
      | none => rw [map_get_none e]
      | some o =>
        rw [map_get e]
        cases o with
        | none => rfl
        | some s => simp only [conc, keyOf, valOf, bind, Except.bind, skip_sim m h, ih]

theorem iter_sim (m : Map K V) (h : G m) : iter plus2 (concM m) = Map.iter m := by
  unfold iter Map.iter
  simp only [skip_sim m h, iterLoop_sim m h]
  rfl

/-! ### Programs on one map -/

theorem step_sim {H : K → Nat} (hH : ∀ k, H k ≠ 0) (lim : Nat) (d : V) (m : Map K V) (h : G m) (op : MapOp K V) :
    Sim (step1 H lim d (concM m) op) (Map.step H lim d m op) (fun b a => a = (concM b.1, b.2) ∧ G b.1) := by
  cases op with
  | insert k v =>
    refine Sim.bind (insert_sim hH lim m k v h) ?_
    rintro ⟨m', i⟩ _ ⟨rfl, h'⟩
    dsimp only at h' ⊢
    rw [valAt_sim]
    refine Sim.bind (Sim.res (r := Map.valAt m' i)) ?_
    rintro v _ rfl
    exact Sim.ret ⟨rfl, h'⟩
  | tryGet k =>
    unfold step1 Map.step
    dsimp only
    rw [try_get_sim H m h]
    refine Sim.bind (Sim.res (r := Map.try_get H m k)) ?_
    rintro r _ rfl
    exact Sim.ret ⟨rfl, h⟩
  | get k =>
    unfold step1 Map.step
    dsimp only
    have : get plus2 H (concM m) k = Map.get H m k := by
      unfold get Map.get; rw [try_get_sim H m h]; rfl
    rw [this]
    refine Sim.bind (Sim.res (r := Map.get H m k)) ?_
    rintro r _ rfl
    exact Sim.ret ⟨rfl, h⟩
  | contains k =>
    unfold step1 Map.step
    dsimp only
    have : contains plus2 H (concM m) k = Map.contains H m k := by
      unfold contains Map.contains; rw [try_get_sim H m h]
    rw [this]
    refine Sim.bind (Sim.res (r := Map.contains H m k)) ?_
    rintro r _ rfl
    exact Sim.ret ⟨rfl, h⟩
  | assign k v =>
    refine Sim.bind (assignAt_sim H m h k v) ?_
    rintro m' _ ⟨rfl, h'⟩
    exact Sim.ret ⟨rfl, h'⟩
  | tryErase k =>
    refine Sim.bind (try_erase_sim hH m h k) ?_
    rintro ⟨m', b⟩ _ ⟨rfl, h'⟩
    exact Sim.ret ⟨rfl, h'⟩
  | erase k =>
    refine Sim.bind (P := RM) ?_ ?_
    · unfold erase Map.erase
      refine Sim.bind (try_erase_sim hH m h k) ?_
      rintro ⟨m', b⟩ _ ⟨rfl, h'⟩
      dsimp only
      split
      · exact Sim.ret ⟨rfl, h'⟩
      · exact fun _ => rfl
    rintro m' _ ⟨rfl, h'⟩
    exact Sim.ret ⟨rfl, h'⟩
  | getOrInsert k =>
    refine Sim.bind (get_or_insert_sim hH lim d m h k) ?_
    rintro ⟨m', b⟩ _ ⟨rfl, h'⟩
    exact Sim.ret ⟨rfl, h'⟩
  | reserve n =>
    refine Sim.bind (reserve_sim lim m n h) ?_
    rintro m' _ ⟨rfl, h'⟩
    exact Sim.ret ⟨rfl, h'⟩
  | clear =>
    have := Sim.bind (g := fun m' => (.ok (m', MapOut.unit) : Res (Map K V × MapOut K V)))
      (f := fun m' => (pure (m', MapOut.unit) : S K V (LMap K V × MapOut K V)))
      (Q := fun b a => a = (concM b.1, b.2) ∧ G b.1) (clear_sim m h)
      (fun b a hba => Sim.ret ⟨by rw [hba.1], hba.2⟩)
    exact this
  | iterate =>
    unfold step1 Map.step
    dsimp only
    rw [iter_sim m h]
    refine Sim.bind (Sim.res (r := Map.iter m)) ?_
    rintro r _ rfl
    exact Sim.ret ⟨rfl, h⟩
  | length => exact Sim.ret ⟨rfl, h⟩

theorem run_sim {H : K → Nat} (hH : ∀ k, H k ≠ 0) (lim : Nat) (d : V) : ∀ (ops : List (MapOp K V)) (m : Map K V), G m →
    Sim (run1 H lim d (concM m) ops) (Map.run H lim d m ops) (fun b a => a.1 = b ∧ ∃ m', a.2 = concM m' ∧ G m') := by
  intro ops
  induction ops with
  | nil => intro m h; exact Sim.ret ⟨rfl, m, rfl, h⟩
  | cons op ops ih =>
    intro m h
    unfold run1 Map.run
    refine Sim.bind (step_sim hH lim d m h op) ?_
    rintro ⟨m', out⟩ _ ⟨rfl, h'⟩
    refine Sim.bind (ih m' h') ?_
    rintro outs ⟨outs', m2⟩ ⟨e, q⟩
    dsimp only at e q ⊢
    subst e
    exact Sim.ret ⟨rfl, q⟩

theorem destroy_sim (m : Map K V) (h : G m) (l : Ledger K V) :
    ∃ a l', destroy (concM m) l = .ok (a, l') ∧ True := by
  obtain ⟨a, l2, e4, e5⟩ := dtorAll_conc m.data h.nz l
  refine ⟨LMap.nil, l2, ?_, trivial⟩
  unfold destroy
  simp only [bind, StateT.bind, concM, e4, Except.bind]
  rw [freeTab_ok (by
    rw [e5, map_replicate]
    intro c hc; rw [List.eq_of_mem_replicate hc]) l2]
  rfl

theorem life_sim {H : K → Nat} (hH : ∀ k, H k ≠ 0) (lim : Nat) (d : V) (ops : List (MapOp K V)) :
    Sim (life H lim d ops) (Map.run H lim d Map.nil ops) (fun b a => a = b) := by
  have hg : G (Map.nil : Map K V) := ⟨fun s hs => by simp [Map.nil] at hs, rfl⟩
  unfold life
  rw [show (LMap.nil : LMap K V) = concM Map.nil from rfl]
  refine Sim.post (run_sim hH lim d ops Map.nil hg) ?_
  rintro b ⟨o, m⟩ ⟨e, m', e', h'⟩ l
  dsimp only at e e'
  subst e e'
  obtain ⟨a, l', e1, _⟩ := destroy_sim m' h' l
  refine ⟨o, l', ?_, rfl⟩
  dsimp only
  simp only [bind, StateT.bind, e1, Except.bind]
  rfl

end Rpp.MapMem
