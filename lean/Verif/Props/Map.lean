import Verif.Proof.MapRun

/-!
# Properties of `rpp::Map`

`H` is the key type's non-zero hash (any function into the 64-bit words; C06 shows that the library's
is never zero), `lim` the number of slots that fit in memory. Maps are those a program can make without
asking for capacity 1 (`Map.Reachable`); `C27_capacity_one_hangs` shows why that one is excluded.
-/

namespace Rpp.Props
open Rpp Rpp.Spec Rpp.Map

variable {K V : Type} [DecidableEq K]

/-- **C22.** A program on a map, from `Map()`, sees exactly what it would see of a finite map: every
insertion returns a reference to the new value, every lookup, erasure and traversal gives the right
answer, and only `get`, `erase` and `get(..) =` of an absent key stop it. Memory cannot run out while
`lim` slots cover three per operation plus what is reserved. -/
theorem C22_map_is_finite_map {H : K → Nat} (hH : ∀ k, H k < 2 ^ 64) (lim : Nat) (hlim : lim < 2 ^ 62)
    (d : V) (ops : List (MapOp K V)) (h1 : .reserve 1 ∉ ops) :
    MapAllowed (lim < mapDemand ops) false d FMap.empty ops (Map.run H lim d Map.nil ops) := by
  have := Map.run_ok ⟨hH⟩ hlim d false (lim < mapDemand ops) ops Map.nil (Inv.nil H lim) (by simp)
    (fun op ho n e hn => h1 (by rw [← hn, ← e]; exact ho)) (by simp)
    (fun hq => by simpa [Map.nil] using hq)
  exact this

/-- The same from `Map(n)`, `n ≠ 1`. -/
theorem C22_map_with_capacity {H : K → Nat} (hH : ∀ k, H k < 2 ^ 64) (lim : Nat) (hlim : lim < 2 ^ 62)
    (d : V) (n : Nat) (hn : n < 2 ^ 64) (hn1 : n ≠ 1) (ops : List (MapOp K V)) (h1 : .reserve 1 ∉ ops)
    (m : Map K V) (hm : withCapacity lim n = .ok m) :
    MapAllowed (lim < mapDemand ops) false d FMap.empty ops (Map.run H lim d m ops) := by
  obtain ⟨i1, i2, i3, _⟩ := Inv.of_capacity (H := H) hlim hn hn1 hm
  have := Map.run_ok ⟨hH⟩ hlim d false (lim < mapDemand ops) ops m i1 (by simp)
    (fun op ho n e hn => h1 (by rw [← hn, ← e]; exact ho)) (by simp)
    (fun hq => by rw [i2] at hq; simpa using hq)
  have e : Map.abs m = FMap.empty := by
    funext k; unfold Map.abs; rw [i3]; rfl
  rw [e] at this
  exact this

/-- A case with collisions and backward shifts: all keys hash to the last slot. -/
example : (Map.run (fun _ : Nat => 2 ^ 64 - 1) 1000 0 Map.nil
    [.insert 1 10, .insert 2 20, .insert 3 30, .erase 1, .tryGet 1, .get 2, .get 3, .insert 2 21, .get 2,
      .getOrInsert 7, .iterate]) =
    .ok [.val 10, .val 20, .val 30, .unit, .opt none, .val 20, .val 30, .val 21, .val 21, .val 0,
      .list [(3, 30), (7, 0), (2, 21)]] := by
  decide +kernel

/-- **C23, partial.** While no present key is inserted again, `length()` is the number of keys.
Missing: insertion of a present key, for which the property is false. -/
theorem C23_length_partial {H : K → Nat} (hH : ∀ k, H k < 2 ^ 64) (lim : Nat) (hlim : lim < 2 ^ 62)
    (d : V) (ops : List (MapOp K V)) (h1 : .reserve 1 ∉ ops) (h2 : NoReinsert d FMap.empty ops) :
    MapAllowed (lim < mapDemand ops) true d FMap.empty ops (Map.run H lim d Map.nil ops) := by
  have := Map.run_ok ⟨hH⟩ hlim d true (lim < mapDemand ops) ops Map.nil (Inv.nil H lim) (fun _ => rfl)
    (fun op ho n e hn => h1 (by rw [← hn, ← e]; exact ho)) (fun _ => h2)
    (fun hq => by simpa [Map.nil] using hq)
  exact this

example : (Map.run (fun n : Nat => n * 2 ^ 60) 1000 0 Map.nil
    [.insert 1 10, .insert 2 20, .erase 1, .insert 1 11, .getOrInsert 2, .getOrInsert 3, .length]).map
      List.getLast? = .ok (some (.num 3)) := by
  decide +kernel

/-- **C23**, what `length()` is in general: the number of insertions since the last `clear`, repeated ones too, less the
keys erased. -/
theorem C23_length_exact {H : K → Nat} (hH : ∀ k, H k < 2 ^ 64) {lim : Nat} (hlim : lim < 2 ^ 62) {d : V}
    {ops : List (MapOp K V)} (h1 : .reserve 1 ∉ ops) {outs : List (MapOut K V)}
    (h : Map.run H lim d Map.nil ops = .ok outs) : MapLengths d FMap.empty 0 ops outs :=
  run_lengths ⟨hH⟩ hlim d ops Map.nil outs (Inv.nil H lim)
    (fun op ho n e hn => h1 (by rw [← hn, ← e]; exact ho)) h

/-- **C23 is false**: inserting a key twice counts it twice, and after erasing it the map, without any
key, is not `empty()`. -/
theorem C23_length_false :
    (Map.run (fun n : Nat => n) 1000 0 Map.nil [.insert 1 10, .insert 1 11, .iterate, .length]) =
      .ok [.val 10, .val 11, .list [(1, 11)], .num 2] ∧
    (Map.run (fun n : Nat => n) 1000 0 Map.nil
      [.insert 1 10, .insert 1 11, .erase 1, .iterate, .length]) =
      .ok [.val 10, .val 11, .unit, .list [], .num 1] := by
  decide +kernel

/-- **C103, partial.** `get(String_View)` is `get` on every map that has a table. Missing: maps without one, for
which it is false. -/
theorem C103_get_view_partial {H : K → Nat} (hH : ∀ k, H k < 2 ^ 64) {lim : Nat} (hlim : lim < 2 ^ 62) {d : V}
    {m : Map K V} (hr : Reachable H lim d m) (hc : m.cap ≠ 0) (k : K) :
    getView H m k = get H m k ∧
    (∀ v, getView H m k = .ok v ↔ try_get H m k = .ok (some v)) ∧
    (getView H m k = .error .die ↔ try_get H m k = .ok none) := by
  have h := hr.inv ⟨hH⟩ hlim
  obtain ⟨h1, h2⟩ := find_ok ⟨hH⟩ h hc k
  unfold Map.get
  rw [try_get_ok ⟨hH⟩ h]
  unfold getView
  cases hv : abs m k with
  | none => rw [h2 hv]; simp [bind, Except.bind]
  | some v =>
    obtain ⟨p, s, e1, e2, e3, e4, _⟩ := h1 v hv
    rw [e1]
    simp [bind, Except.bind, valAt, e2, e4, pure, Except.pure]

/-- **C103 is false of the code** for maps without a table: `get(String_View)` does not look whether the map is
empty and reads through a null pointer, where `get(const K&)` reports the key as missing. -/
theorem C103_get_view_null_false {H : K → Nat} (hH : ∀ k, H k < 2 ^ 64) {lim : Nat} (hlim : lim < 2 ^ 62) {d : V}
    {m : Map K V} (hr : Reachable H lim d m) (hc : m.cap = 0) (k : K) :
    getView H m k = .error .ub ∧ get H m k = .error .die := by
  have h := hr.inv ⟨hH⟩ hlim
  have hl : m.len = 0 := Decidable.byContradiction fun c => len_cap h c hc
  have hd : m.data = [] := h.zero hc
  constructor
  · unfold getView find shr
    rw [hd]
    split
    · simp [findLoop, bind, Except.bind]
    · simp [bind, Except.bind]
  · unfold Map.get
    rw [try_get_ok ⟨hH⟩ h, len_zero h hl]
    rfl

/-- Both cases occur: an empty map without a table, and one that has kept its table. -/
example : getView (V := Nat) (fun n : Nat => n) Map.nil 1 = .error .ub ∧
    (do
      let (m, _) ← insert (fun n : Nat => n * 2 ^ 60) 1000 (Map.nil (V := Nat)) 3 30
      getView (fun n : Nat => n * 2 ^ 60) m 3) = .ok 30 ∧
    (do
      let (m, _) ← insert (fun n : Nat => n * 2 ^ 60) 1000 (Map.nil (V := Nat)) 3 30
      getView (fun n : Nat => n * 2 ^ 60) m 4) = .error .die := by
  decide +kernel

/-- **C24.** Iterating over a map visits every entry exactly once, with its current value. -/
theorem C24_iteration {H : K → Nat} (hH : ∀ k, H k < 2 ^ 64) {lim : Nat} (hlim : lim < 2 ^ 62) {d : V}
    {m : Map K V} (hr : Reachable H lim d m) :
    ∃ l, iter m = .ok l ∧ (l.map Prod.fst).Nodup ∧
      ∀ k v, (k, v) ∈ l ↔ try_get H m k = .ok (some v) := by
  have h := hr.inv ⟨hH⟩ hlim
  refine ⟨_, iter_ok h, (lists_of h).1, fun k v => ?_⟩
  rw [try_get_ok ⟨hH⟩ h]
  simpa using (lists_of h).2 k v

/-- **C25.** Erasing reports whether the key was there, removes it, and changes no other lookup. -/
theorem C25_erase {H : K → Nat} (hH : ∀ k, H k < 2 ^ 64) {lim : Nat} (hlim : lim < 2 ^ 62) {d : V}
    {m : Map K V} (hr : Reachable H lim d m) (k : K) :
    ∃ m' b, try_erase H m k = .ok (m', b) ∧ Reachable H lim d m' ∧
      contains H m k = .ok b ∧ try_get H m' k = .ok none ∧
      ∀ k', k' ≠ k → try_get H m' k' = try_get H m k' := by
  have h := hr.inv ⟨hH⟩ hlim
  obtain ⟨m', e, i1, i2, _, _⟩ := try_erase_ok ⟨hH⟩ h k
  refine ⟨m', _, e, ?_, ?_, ?_, ?_⟩
  · refine Reachable.step (op := .tryErase k) (out := .bool (abs m k).isSome) hr (by simp) ?_
    simp only [Map.step, e]; rfl
  · simp only [contains, try_get_ok ⟨hH⟩ h]; rfl
  · rw [try_get_ok ⟨hH⟩ i1, i2]; simp [FMap.del]
  · intro k' hk
    rw [try_get_ok ⟨hH⟩ i1, try_get_ok ⟨hH⟩ h, i2]
    simp [FMap.del, Ne.symm hk]

/-- **C26.** `reserve` (and so `grow`) to any capacity but 1 keeps every lookup and the length. It only
fails when the capacity asked for does not fit in memory. -/
theorem C26_reserve {H : K → Nat} (hH : ∀ k, H k < 2 ^ 64) {lim : Nat} (hlim : lim < 2 ^ 62) {d : V}
    {m : Map K V} (hr : Reachable H lim d m) (n : Nat) (hn : n ≠ 1) (hfit : n ≤ lim) :
    ∃ m', reserve lim m n = .ok m' ∧ n ≤ m'.cap ∧ m'.len = m.len ∧
      ∀ k, try_get H m' k = try_get H m k := by
  have h := hr.inv ⟨hH⟩ hlim
  rcases reserve_ok ⟨hH⟩ hlim h hn with ⟨hq, _⟩ | ⟨m', e, i1, i2, i3, i4⟩
  · omega
  · refine ⟨m', e, by rw [i4]; split <;> omega, i3, fun k => ?_⟩
    rw [try_get_ok ⟨hH⟩ i1, try_get_ok ⟨hH⟩ h]
    exact congrArg _ (lk_perm i1.nodup i2 k)

/-- **C27, partial.** On a reachable map every operation ends, without undefined behaviour. It runs out of memory only
if it allocates and what it may need is more than there is, and stops the program only if it must, by the contents `f`
of the map. Missing: maps that were asked for capacity 1, for which it is false. -/
theorem C27_terminates_partial {H : K → Nat} (hH : ∀ k, H k < 2 ^ 64) {lim : Nat} (hlim : lim < 2 ^ 62)
    {d : V} {m : Map K V} (hr : Reachable H lim d m) (op : MapOp K V)
    (h1 : ∀ n, op = .reserve n → n ≠ 1) :
    ∃ f : FMap K V, (∀ k, try_get H m k = .ok (f k)) ∧
      ((¬ op.Dies f ∧ ∃ m' out, Map.step H lim d m op = .ok (m', out)) ∨
        (Map.step H lim d m op = .error .oom ∧ op.Allocates ∧ lim < 3 * m.len + mapDemand [op]) ∨
        (Map.step H lim d m op = .error .die ∧ op.Dies f)) := by
  have h := hr.inv ⟨hH⟩ hlim
  refine ⟨abs m, try_get_ok ⟨hH⟩ h, ?_⟩
  rcases Map.step_ok ⟨hH⟩ hlim d false h (by simp) op h1 (by simp) with
    ⟨g1, g2, e⟩ | ⟨g, e⟩ | ⟨g, m', out, e, _⟩
  · exact .inr (.inl ⟨e, g2, g1⟩)
  · exact .inr (.inr ⟨e, g⟩)
  · exact .inl ⟨g, m', out, e⟩

/-- The map that `Map(1)` and two insertions make. -/
def twoOfTwo : Map Nat Nat := ⟨[some ⟨1, 1, 10⟩, some ⟨2, 2, 20⟩], 2, 2, 0, 63⟩

/-- **C27 is false**: `Map(1)` grows to two slots of which none counts as usable, so it never counts as
full. The third key that is inserted is moved around the full table for ever: whatever number of steps
`insert_slot` is given, it has not returned. -/
theorem C27_capacity_one_hangs :
    (do
      let m ← withCapacity 1000 1
      let (m, _) ← Map.insert (fun n : Nat => n) 1000 m 1 10
      let (m, _) ← Map.insert (fun n : Nat => n) 1000 m 2 20
      return m) = .ok twoOfTwo ∧ twoOfTwo.isFull = false ∧
    ∀ fuel, insert_slot fuel twoOfTwo.cap twoOfTwo.shift twoOfTwo.data ⟨3, 3, 30⟩ = .error .hang := by
  refine ⟨by decide +kernel, by decide +kernel, fun fuel => ?_⟩
  unfold insert_slot
  have e : shr (3 : Nat) twoOfTwo.shift = .ok 0 := by decide +kernel
  rw [e]
  exact insert_full (by decide) fuel _ _ _ _ _ (by decide) (by decide) (by decide +kernel)
    (by decide +kernel) (by decide +kernel)

/-- In general: a table without an empty slot does not accept a new key. -/
theorem C27_full_table_hangs {cap shift : Nat} (hs : shift < 64) {tab : List (Option (Slot K V))}
    (hl : tab.length = cap) (hf : none ∉ tab) (hn : ((slots tab).map Slot.key).Nodup)
    (slot : Slot K V) (hr : slot.hash / 2 ^ shift < cap) (hk : slot.key ∉ (slots tab).map Slot.key)
    (fuel : Nat) : insert_slot fuel cap shift tab slot = .error .hang := by
  unfold insert_slot shr
  rw [if_pos hs]
  exact insert_full hs fuel _ _ _ _ _ hl hr hf hk hn

/-- **C28, partial.** A clone of a map whose capacity is a power of two, or which has none, has the same
entries in the same order, answers every lookup alike, and any program that goes on with it sees a finite map with
the contents `f` of the original. Missing: other capacities, which `reserve`
can make, for which it is false. -/
theorem C28_clone_partial {H : K → Nat} (hH : ∀ k, H k < 2 ^ 64) {lim : Nat} (hlim : lim < 2 ^ 62)
    {d : V} {m : Map K V} (hr : Reachable H lim d m) (hp : m.cap = 0 ∨ ∃ e, m.cap = 2 ^ e) :
    ∃ m' f, clone lim m = .ok m' ∧ m'.len = m.len ∧ iter m' = iter m ∧
      (∀ k, try_get H m k = .ok (f k)) ∧ (∀ k, try_get H m' k = .ok (f k)) ∧
      ∀ ops, .reserve 1 ∉ ops →
        MapAllowed (lim < 3 * m.len + mapDemand ops) false d f ops (Map.run H lim d m' ops) := by
  have h := hr.inv ⟨hH⟩ hlim
  have hf := h.fits
  have hnp : Math.next_pow2 64 m.cap = .ok m.cap := by
    rcases hp with h0 | ⟨e, he⟩
    · rw [h0]; decide +kernel
    · have hpos : 1 ≤ m.cap := by rw [he]; exact Nat.one_le_two_pow
      obtain ⟨r, e1, e2, e3, e4⟩ := C01_next_pow2 (w := 64) (x := m.cap) (by omega) hpos
        (le_trans hf (le_trans (le_of_lt hlim) (by norm_num)))
      have := e4 m.cap ⟨e, he⟩ (le_refl _)
      rw [e1]; congr; omega
  have hc : clone lim m = .ok ⟨m.data, m.cap, m.len, m.cap / 4 * 3, Math.ctlz 64 m.cap + 1⟩ := by
    have hl : m.data.length = m.cap := by
      by_cases h0 : m.cap = 0
      · rw [h.zero h0, h0]; rfl
      · exact (h.tab h0).len
    unfold clone withCapacity allocZero
    rw [hnp]
    simp only [bind, Except.bind, if_neg (by omega : ¬ m.cap > lim), pure, Except.pure]
    rw [if_pos (by simp), List.drop_eq_nil_of_le (by simp), List.append_nil]
  have hi : Inv H lim (⟨m.data, m.cap, m.len, m.cap / 4 * 3, Math.ctlz 64 m.cap + 1⟩ : Map K V) := by
    refine ⟨h.zero, fun h0 => ?_, h.cnt, rfl, by have := h.le; have := h.us; simp only; omega, hf, fun _ => rfl⟩
    have ht := h.tab h0
    have hs : Math.ctlz 64 m.cap + 1 = m.shift := (h.shc h0).symm
    simp only
    rw [hs]; exact ht
  refine ⟨_, abs m, hc, rfl, ?_, try_get_ok ⟨hH⟩ h, fun k => ?_, fun ops h1 => ?_⟩
  · rw [iter_ok hi, iter_ok h]
  · rw [try_get_ok ⟨hH⟩ hi]
    rfl
  · exact Map.run_ok ⟨hH⟩ hlim d false _ ops _ hi (by simp)
      (fun op ho n e hn => h1 (by rw [← hn, ← e]; exact ho)) (by simp) (fun hq => hq)

example : (do
    let (m, _) ← Map.insert (fun n : Nat => n * 2 ^ 58) 1000 Map.nil 1 10
    let (m, _) ← Map.insert (fun n : Nat => n * 2 ^ 58) 1000 m 17 20
    let c ← clone 1000 m
    return (← try_get (fun n : Nat => n * 2 ^ 58) c 17, m.cap)) = .ok (some 20, 32) := by
  decide +kernel

/-- Whatever the capacity (the case of `C28_clone_false` included): the clone has the same length and lists the same entries in the same order, if there is memory for a table
of twice the capacity. -/
theorem C28_clone_iterates {H : K → Nat} (hH : ∀ k, H k < 2 ^ 64) {lim : Nat} (hlim : lim < 2 ^ 62)
    {d : V} {m : Map K V} (hr : Reachable H lim d m) (hm : 2 * m.cap ≤ lim) :
    ∃ m', clone lim m = .ok m' ∧ m'.len = m.len ∧ iter m' = iter m := by
  have h := hr.inv ⟨hH⟩ hlim
  obtain ⟨c, hc, hle, hge⟩ : ∃ c, Math.next_pow2 64 m.cap = .ok c ∧ c ≤ 2 * m.cap ∧ m.cap ≤ c := by
    by_cases h0 : m.cap = 0
    · rw [h0]; exact ⟨0, by decide +kernel, by omega, by omega⟩
    · obtain ⟨r, e1, ⟨k, hk⟩, e3, e4⟩ := C01_next_pow2 (w := 64) (x := m.cap) (by omega) (by omega) (by omega)
      refine ⟨r, e1, ?_, e3⟩
      cases k with
      | zero => rw [hk]; omega
      | succ k =>
        by_contra hgt
        have := e4 (2 ^ k) ⟨k, rfl⟩ (by rw [hk, pow_succ] at hgt; omega)
        rw [hk, pow_succ] at this
        have : 0 < 2 ^ k := by positivity
        omega
  have hl : m.data.length = m.cap := by
    by_cases h0 : m.cap = 0
    · rw [h.zero h0, h0]; rfl
    · exact (h.tab h0).len
  have e : clone lim m = .ok ⟨m.data ++ (List.replicate c none).drop m.cap, c, m.len, c / 4 * 3, Math.ctlz 64 c + 1⟩ := by
    unfold clone withCapacity allocZero
    rw [hc]
    simp only [bind, Except.bind, if_neg (by omega : ¬ c > lim), pure, Except.pure]
    rw [if_pos (by simpa using hge)]
  refine ⟨_, e, rfl, ?_⟩
  rw [iter_ok h]
  have hl' : (m.data ++ (List.replicate c none).drop m.cap).length = c := by simp [hl]; omega
  unfold iter
  obtain ⟨c1, h4, h5, h6, h7, h8⟩ := skip_spec (m := ⟨m.data ++ (List.replicate c none).drop m.cap, c, m.len, c / 4 * 3,
    Math.ctlz 64 c + 1⟩) hl' c 0 (by omega) (by dsimp only; omega)
  dsimp only at h4 ⊢
  rw [h4]
  simp only [bind, Except.bind]
  rw [iterLoop_spec hl' _ c1 h6 (by dsimp only at h6 ⊢; omega) h8, ← h7]
  simp [slots]

/-- **C28 is false**: `reserve(33)` gives a table of 33 slots; its clone has 64 slots and a different
shift, but the entries are at the old indices. The entry is in the clone (iteration finds it) but cannot
be looked up. -/
theorem C28_clone_false :
    (do
      let m ← reserve 1000 (Map.nil : Map Nat Nat) 33
      let (m, _) ← Map.insert (fun _ : Nat => 2 ^ 63) 1000 m 1 10
      let c ← clone 1000 m
      return (← try_get (fun _ : Nat => 2 ^ 63) m 1, ← try_get (fun _ : Nat => 2 ^ 63) c 1, ← iter c)) =
    .ok (some 10, none, [(1, 10)]) := by
  decide +kernel

/-- **C29.** `get_or_insert(k)` gives the value bound to `k`, or binds `k` to the default value; no other
key is affected. It can only fail for lack of memory. -/
theorem C29_get_or_insert {H : K → Nat} (hH : ∀ k, H k < 2 ^ 64) {lim : Nat} (hlim : lim < 2 ^ 62)
    {d : V} {m : Map K V} (hr : Reachable H lim d m) (hfit : 3 * m.len + 32 ≤ lim) (k : K) :
    ∃ m' v, get_or_insert H lim d m k = .ok (m', v) ∧ Reachable H lim d m' ∧
      (∀ w, try_get H m k = .ok (some w) → v = w ∧ m' = m) ∧
      (try_get H m k = .ok none → v = d) ∧
      try_get H m' k = .ok (some v) ∧
      ∀ k', k' ≠ k → try_get H m' k' = try_get H m k' := by
  have h := hr.inv ⟨hH⟩ hlim
  rcases get_or_insert_ok ⟨hH⟩ hlim h d k with ⟨hq, _⟩ | ⟨m', e, i1, i2, _, _⟩
  · omega
  · refine ⟨m', _, e, ?_, ?_, ?_, ?_, ?_⟩
    · refine Reachable.step (op := .getOrInsert k) (out := .val ((abs m k).getD d)) hr (by simp) ?_
      simp only [Map.step, e]; rfl
    · intro w hw
      have hw' := hw
      rw [try_get_ok ⟨hH⟩ h] at hw
      injection hw with hw
      refine ⟨by rw [hw]; rfl, ?_⟩
      unfold get_or_insert at e
      rw [hw'] at e
      simp only [bind, Except.bind, pure, Except.pure, Except.ok.injEq, Prod.mk.injEq] at e
      exact e.1.symm
    · intro hw
      rw [try_get_ok ⟨hH⟩ h] at hw
      injection hw with hw
      rw [hw]; rfl
    · rw [try_get_ok ⟨hH⟩ i1, i2]
      cases hk : abs m k with
      | none => simp [FMap.put]
      | some v => simp [hk]
    · intro k' hk'
      rw [try_get_ok ⟨hH⟩ i1, try_get_ok ⟨hH⟩ h, i2]
      split
      · rfl
      · simp [FMap.put, Ne.symm hk']

end Rpp.Props
