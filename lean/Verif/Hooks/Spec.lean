import Verif.Hooks.Model
/-!
# What a fiber may see of its hook
-/
namespace Verif.Hooks

def Ev.fiber : Ev → Nat
  | .code f | .set f _ | .susp f _ | .res f _ | .away f | .back f => f

/-- The events of fiber `f`. -/
def proj (f : Nat) (l : List Ev) : List Ev := l.filter fun e => e.fiber = f

/-- Running; its hook has been told; not active; active again but its hook has not been told. -/
inductive Ph where
  | running | told | away | untold
deriving DecidableEq

/-- The rules, for a fiber whose hook is `h`: it runs code and sets its hook only while it runs; a fiber with a hook leaves only after its hook was called
with SUSPEND, once, and when it is back it runs only after the same hook was called with RESUME, once; there are no other calls. -/
def next : Ph × Option Nat → Ev → Option (Ph × Option Nat)
  | (.running, h), .code _ => some (.running, h)
  | (.running, _), .set _ h' => some (.running, h')
  | (.running, some h), .susp _ x => if x = h then some (.told, some h) else none
  | (.running, none), .away _ => some (.away, none)
  | (.told, h), .away _ => some (.away, h)
  | (.away, none), .back _ => some (.running, none)
  | (.away, some h), .back _ => some (.untold, some h)
  | (.untold, some h), .res _ x => if x = h then some (.running, some h) else none
  | _, _ => none

/-- Follow the rules through a list of events. -/
def follow : Ph × Option Nat → List Ev → Option (Ph × Option Nat)
  | p, [] => some p
  | p, e :: l => match next p e with
    | some p' => follow p' l
    | none => none

end Verif.Hooks
