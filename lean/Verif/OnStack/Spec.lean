import Verif.OnStack.Model
/-!
# What the fibers can see
-/
namespace Verif.OnStack
open Verif.Common

/-- A reachable state of the thread. -/
abbrev Ok (s : S) : Prop := Reachable (· = init) step s

/-- Two states are the same apart from what the function did: the same fiber runs, the same fibers are
there and can be resumed, and the same fibers went on with the same contexts. -/
def Same (s s' : S) : Prop :=
  s.active = s'.active ∧ s.known = s'.known ∧ s.entry = s'.entry ∧ s.resumed = s'.resumed ∧ s.bad = s'.bad

/-- The history without running the function on other stacks. -/
def switches (acts : List Act) : List Act :=
  acts.filter (fun a => match a with | .start _ => true | .switch _ => true | .probe _ => false | .probeAll => false)

end Verif.OnStack
