import Verif.Barrier.Model
import Verif.Sync.Spec
/-!
# What users of a `Barrier` rely on: vocabulary

Arrivals are numbered from 0. The cycle of arrival `i` in a barrier of `n` participants is the group of `n` consecutive arrivals
it belongs to: it is complete when `(i / n + 1) * n` fibers have arrived.
-/
namespace Verif.Barrier
open Verif.Sync

/-- All participants of the cycle of arrival `i` have arrived. -/
def Complete (g : G) (i : Nat) : Prop := (i / g.initial + 1) * g.initial ≤ g.arrived

/-- Fewer than 2^64 - 1 arrivals so far. -/
def Few (s : State G L) : Prop := s.g.arrived < maxSize

/-- Fiber `t` is about to return `b` from `Wait`, having arrived as number `i`. -/
def Returning (s : State G L) (t : Nat) (b : Bool) (i : Nat) : Prop := s.cl t = .wUnl b i

/-- Fiber `t`, which arrived as number `i`, is waiting and nobody has notified it. -/
def Blocked (s : State G L) (t i : Nat) : Prop := Unnotified s t ∧ ∃ c, s.cl t = .wWait c i

/-- The fiber will call `notify_all` before it does anything else that can block on the barrier. -/
def Notifying : L → Prop
  | .wNtf _ | .xUnl | .xNtf => True
  | _ => False

/-- A fiber is still about to notify fiber `t`. -/
def HelpComing (s : State G L) (t : Nat) : Prop := (∃ u, Notifying (s.cl u)) ∨ ∃ u all, s.ep u = .nAct all t

end Verif.Barrier
