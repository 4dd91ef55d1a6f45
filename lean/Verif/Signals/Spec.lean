import Verif.Signals.Model
/-!
# Vocabulary of the signal properties
-/
namespace Verif.Signals
open Common

/-- Everything that can happen. -/
def Reaches (s : S) : Prop := Reachable (fun t => t = {}) step s

/-- The tasks of a proactor. -/
def on (p : Nat) (l : List Task) : List Task := l.filter fun t => t.p == p

end Verif.Signals
