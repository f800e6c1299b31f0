import Verif.Proof.NestedObs

/-!
# C157: containers inside of containers

Full statement: programs that declare variables of types built from `u64` with `Vec`, `Box`, `Opt` and `Pair`, and move, clone, assign, pop and
clear them and parts of them, compute what they compute on values; nothing is used after it was freed, freed twice or leaked. An object may
not be put into something that it is a part of; `C157_inside` shows what happens otherwise.
-/

namespace Rpp.Props
open Rpp Rpp.Nested

/-- **C157.** A program on memory ends where and as the program on values does, and its variables have the same values. -/
theorem C157_values (ops : List Op) (hl : ∀ op ∈ ops, op.legal) :
    (∀ e, valRun [] ops = .error e → run St.init ops = .error e) ∧
    ∀ σ, valRun [] ops = .ok σ → ∃ s, run St.init ops = .ok s ∧ s.vars.length = σ.length ∧ ∀ x : Nat, (σ[x]? = some none → s.vars[x]? = some none) ∧
      ∀ t T, σ[x]? = some (some (t, T)) → ∃ b, s.vars[x]? = some (some (t, b)) ∧ value s.mem t ⟨b, []⟩ = some T := by
  obtain ⟨a, b⟩ := run_ok ops inv_nil hl
  refine ⟨fun e he => (a e he).1, fun σ hσ => ?_⟩
  obtain ⟨s, r1, r2⟩ := b σ hσ
  exact ⟨s, r1, inv_values r2⟩

/-- **C157.** A program never does anything undefined: it may only end in a failed check, of an index, of a null box, of an empty `Opt` or of
`pop` of an empty vector. -/
theorem C157_safe (ops : List Op) (hl : ∀ op ∈ ops, op.legal) {e : Err} (he : run St.init ops = .error e) : e = .die := by
  obtain ⟨a, b⟩ := run_ok ops inv_nil hl
  cases hv : valRun [] ops with
  | error e' =>
    obtain ⟨r1, r2⟩ := a e' hv
    rw [r1] at he
    cases he
    exact r2
  | ok σ =>
    obtain ⟨s, r1, _⟩ := b σ hv
    rw [r1] at he
    cases he

/-- **C157.** At all times every allocation has exactly one owner: the allocations are the variables and what they own, each once. -/
theorem C157_owned (ops : List Op) (hl : ∀ op ∈ ops, op.legal) {s : St} (hs : run St.init ops = .ok s) :
    s.mem.live.Perm (s.vars.flatMap (varBlocks s.mem)) ∧ s.mem.live.Nodup := by
  obtain ⟨a, b⟩ := run_ok ops inv_nil hl
  cases hv : valRun [] ops with
  | error e' =>
    rw [(a e' hv).1] at hs
    cases hs
  | ok σ =>
    obtain ⟨s', r1, r2⟩ := b σ hv
    rw [r1] at hs
    cases hs
    exact inv_owned r2

/-- **C157.** When all variables have gone out of scope, nothing is allocated. -/
theorem C157_freed (ops : List Op) (hl : ∀ op ∈ ops, op.legal) {σ : Vals} (hσ : valRun [] ops = .ok σ) :
    ∃ s, run St.init (ops ++ (List.range σ.length).map .leave) = .ok s ∧ s.mem.live = [] := by
  obtain ⟨σ', e1, e2⟩ := leave_all σ.length 0 σ (by omega) (fun x hx => by omega)
  obtain ⟨_, b⟩ := run_ok (ops ++ (List.range σ.length).map .leave) inv_nil (fun op ho => by
    rcases List.mem_append.1 ho with h | h
    · exact hl op h
    · obtain ⟨x, _, rfl⟩ := List.mem_map.1 h
      trivial)
  obtain ⟨s, r1, r2⟩ := b σ' (by
    rw [valRun_append, hσ, List.range_eq_range']
    exact e1)
  exact ⟨s, r1, inv_free r2 e2⟩

/-! ## Examples -/

/-- `Pair<Vec<Box<u64>>, Opt<Vec<u64>>> a; Box<u64> b; u64 c; Vec<u64> d; c = 7; b.emplace(move(c)); a.first.push(move(b)); d.push(move(c));
a.second = move(d); auto e = a.clone(); a = move(a); *e.first[0] = 9;` -/
def nestedProg : List Op :=
  [.decl (.pair (.vec (.box .num)) (.opt (.vec .num))), .decl (.box .num), .decl .num, .decl (.vec .num), .num ⟨2, []⟩ 7,
    .give .emplace ⟨1, []⟩ ⟨2, []⟩, .give .push ⟨0, [.fst]⟩ ⟨1, []⟩, .give .push ⟨3, []⟩ ⟨2, []⟩, .give .wrap ⟨0, [.snd]⟩ ⟨3, []⟩,
    .decl (.pair (.vec (.box .num)) (.opt (.vec .num))), .clone ⟨4, []⟩ ⟨0, []⟩, .give .assign ⟨0, []⟩ ⟨0, []⟩, .num ⟨4, [.fst, .idx 0, .deref]⟩ 9]

example : ∀ op ∈ nestedProg, op.legal := by simp [nestedProg, Op.legal]

example : valRun [] nestedProg = .ok [some (.pair (.vec (.box .num)) (.opt (.vec .num)), .pair (.vec []) (.opt none)), some (.box .num, .box none),
    some (.num, .num 7), some (.vec .num, .vec []),
    some (.pair (.vec (.box .num)) (.opt (.vec .num)), .pair (.vec [.box (some (.num 9))]) (.opt (some (.vec [.num 7]))))] := rfl

/-- Eight blocks: five variables and the three of the copy; those of the first pair are freed. -/
example : (run St.init nestedProg).map (fun s => (s.mem.live.length, s.mem.next)) = .ok (8, 12) := by decide +kernel

/-- Programs also end in failed checks. -/
example : (run St.init [.decl (.vec (.box .num)), .decl (.box .num), .give .push ⟨0, []⟩ ⟨1, []⟩, .num ⟨0, [.idx 0, .deref]⟩ 3]).map (fun _ => ()) =
    .error .die := by decide +kernel

/-- Objects put into what they are a part of: `v.push(move(v[0]))` when the vector has to grow uses the old block; `b.emplace(move(*b))` frees its
argument first; `o = move(*o)` of an `Opt<Vec<u64>>` destroys its argument first, so that the elements are lost (on values, `o` keeps
them). -/
theorem C157_inside :
    (run St.init ([.decl (.vec (.vec .num)), .decl (.vec .num)] ++ List.replicate 8 (.give .push ⟨0, []⟩ ⟨1, []⟩) ++
      [.give .push ⟨0, []⟩ ⟨0, [.idx 0]⟩])).map (fun _ => ()) = .error .ub ∧
    (run St.init [.decl (.box .num), .decl .num, .give .emplace ⟨0, []⟩ ⟨1, []⟩, .give .emplace ⟨0, []⟩ ⟨0, [.deref]⟩]).map (fun _ => ()) = .error .ub ∧
    ∃ ops s, (∃ σ, valRun [] ops = .ok σ ∧ σ[0]? = some (some (.opt (.vec .num), .opt (some (.vec [.num 5]))))) ∧ run St.init ops = .ok s ∧
      s.vars[0]? = some (some (.opt (.vec .num), 0)) ∧ value s.mem (.opt (.vec .num)) ⟨0, []⟩ = some (.opt (some (.vec []))) := by
  refine ⟨by decide +kernel, by decide +kernel, [.decl (.opt (.vec .num)), .decl (.vec .num), .decl .num, .num ⟨2, []⟩ 5,
    .give .push ⟨1, []⟩ ⟨2, []⟩, .give .wrap ⟨0, []⟩ ⟨1, []⟩, .give .wrap ⟨0, []⟩ ⟨0, [.val]⟩], _, ⟨_, rfl, rfl⟩, rfl, rfl, rfl⟩

end Rpp.Props
