import Verif.MpmcRA.Model
/-! Words for C88. -/
namespace Verif.MpmcRA
open Verif.Common Verif.RelAcq
variable {α : Type}

/-- States that can be reached when the accesses have the orders `c`. -/
abbrev Reached (c : Cfg) (s : State α) : Prop := Reachable Init (step c) s

/-- The enqueue at position `p` was completed and happens before what thread `t` does next (or `t` has seen it): the view of `t` includes
a message of the sequence number of the cell that says so. -/
def EnqueueKnown (s : State α) (t p : Nat) : Prop :=
  ∃ ts x, s.m.msg (.seq (s.q.cell p)) ts = some x ∧ p + 1 ≤ x.val ∧ ts ≤ s.m.cur t (.seq (s.q.cell p))

/-- The cell of position `p` was given back by the dequeue one round before (or never used), and `t` knows. -/
def FreeKnown (s : State α) (t p : Nat) : Prop :=
  ∃ ts x, s.m.msg (.seq (s.q.cell p)) ts = some x ∧ p ≤ x.val ∧ ts ≤ s.m.cur t (.seq (s.q.cell p))

end Verif.MpmcRA
