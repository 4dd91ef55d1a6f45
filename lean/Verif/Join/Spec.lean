import Verif.Join.Model
/-!
What C28 and C46 talk about.
-/
namespace Verif.Join
open Verif.Common

/-- The target's function has returned. -/
def Ended (s : State) : Prop := s.fpc ≠ .run

/-- `t`'s call of `Join` has returned. (Its handle is released next.) -/
def Returned (s : State) (t : Nat) : Prop := s.jpc t = .ret

/-- `t` is inside a call of `Join`. -/
def InJoin (s : State) (t : Nat) : Prop := s.jpc t ≠ .idle ∧ s.jpc t ≠ .ret

/-- `t` is suspended in `Join` and nobody has activated it. -/
def Asleep (s : State) (t : Nat) : Prop := s.jpc t = .susp ∧ s.wake t = false

/-- The target has finished waking the fibers that joined it. -/
def WokeAll (s : State) : Prop := s.fpc = .clr ∨ s.fpc = .pre ∨ s.fpc = .out

/-- The target still has its own reference: it runs, or its dispatcher has not released it yet. -/
def OwnRef (s : State) : Prop := s.fpc ≠ .out ∨ s.tq = true ∨ s.popped = true

/-- There are fewer handles than the 32 bit count can count. -/
def Few (s : State) : Prop := s.hold.length + 1 < 2 ^ 32

/-- A step inside `Join` or `Terminate`, as opposed to a new call. -/
def Inner : Act → Prop
  | .f => True
  | .j _ => True
  | _ => False

end Verif.Join
