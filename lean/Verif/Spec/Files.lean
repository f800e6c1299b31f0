/-!
# Specification: files as contents by path
-/

namespace Rpp.Spec

/-- What is stored under each path. -/
abbrev Contents (P : Type) := P → Option (List UInt8)

/-- A stored file after a successful write: `data` under `p`, nothing else changed. -/
def Written {P : Type} [DecidableEq P] (before after : Contents P) (p : P) (data : List UInt8) : Prop :=
  ∀ q, after q = if q = p then some data else before q

/-- Poll number `i` of a file watcher sees a newer file: observation `i` succeeded, and the last successful one
before it, if any, was earlier. `obs` are the write times observed, `none` where the file could not be looked at. -/
def Newer (obs : List (Option Int)) (i : Nat) : Prop :=
  ∃ t, obs[i]? = some (some t) ∧ ∀ j s, j < i → obs[j]? = some (some s) →
    (∀ k, j < k → k < i → obs[k]? = some none) → s < t

end Rpp.Spec
