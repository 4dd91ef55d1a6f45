import Verif.OnIdle.Model

/-!
# On-idle tasks: specification

`installed log` is what a client computes from the results it has seen: which task each id stands
for. A task is gone once `RemoveOnIdleTask` on its id returned true or it returned a negative level.
-/
namespace Verif.OnIdle

/-- The effect of one event on the client's table from ids to tasks. -/
def note (m : Nat → Option Nat) : Ev → Nat → Option Nat
  | .added id tid => fun i => if i = id then some tid else m i
  | .removed id => fun i => if i = id then none else m i
  | .ran tid level => fun i => if level < 0 ∧ m i = some tid then none else m i

/-- The table after a log. -/
def installed (log : List Ev) : Nat → Option Nat := log.foldl note fun _ => none

/-- All events of a history. -/
def events (os : List Obs) : List Ev := os.flatMap (·.log)

/-- A callback that returns a negative level does not also remove its own id. -/
def Polite : Op → Prop
  | .idle env _ => ∀ i, (env i).level < 0 → i ∉ (env i).removes
  | _ => True

/-- The call is not `RemoveOnIdleTask` from outside the idle loop. -/
def NotRemove : Op → Prop
  | .remove _ => False
  | _ => True

/-- The call is a run of the idle loop. -/
def IsIdle : Op → Prop
  | .idle _ _ => True
  | _ => False

end Verif.OnIdle
