import Verif.Proactor.Model
/-!
What C29 talks about.
-/
namespace Verif.Proactor
open Verif.Common

/-- The proactor is waiting in the kernel without a limit and the kernel has no event for it. -/
def Asleep (s : State) : Prop := s.cpc = .blocked ∧ s.ev = false

/-- Some task or some remotely activated fiber has not been taken by the proactor. -/
def Unprocessed (s : State) : Prop := s.tq.head < s.tq.tail ∨ s.rq.head < s.rq.tail

/-- Producer `t` is inside a call. -/
def InCall (s : State) (t : Nat) : Prop := s.ppc t ≠ .idle

/-- Fewer than `2 ^ 31` additions to the 32 bit sequence number in one iteration of the loop. -/
def NoWrap (s : State) : Prop := s.adds < 2 ^ 31

/-- A step of a producer inside a call. -/
def IsProducer : Act → Prop
  | .p _ => True
  | _ => False

end Verif.Proactor
