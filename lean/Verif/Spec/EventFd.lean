import Verif.Model.EventFd

/-!
# Specification: who holds a descriptor
-/

namespace Rpp.EvFd

/-- The event holds this number, in one of its fields. -/
def Ev.has (e : Ev) (n : Nat) : Prop := e.fd = some n ∨ e.sig = some n

/-- Whenever the program calls `of_sys`, it hands over a descriptor that it holds itself. -/
def Handed (y : Sys) (ops : List Op) : Prop :=
  ∀ pre v n post s, ops = pre ++ .ofSys v n :: post → run y pre = .ok s → s.objs v = none → n ∈ s.ext

/-- Every number open has exactly one holder: the rest of the program, or one event in one of its fields. Nothing else is
held, and nothing was closed that was not open. -/
structure Owned (s : St) : Prop where
  nodup : s.live.Nodup
  held : ∀ n, n ∈ s.live ↔ n ∈ s.ext ∨ ∃ v e, s.objs v = some e ∧ e.has n
  apart : ∀ n v e, n ∈ s.ext → s.objs v = some e → ¬ e.has n
  one : ∀ n v u e e', s.objs v = some e → s.objs u = some e' → e.has n → e'.has n → u = v
  fields : ∀ n v e, s.objs v = some e → ¬ (e.fd = some n ∧ e.sig = some n)
  bad : s.bad = []

end Rpp.EvFd
