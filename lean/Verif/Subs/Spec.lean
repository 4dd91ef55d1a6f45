import Verif.Subs.Model
/-!
# Vocabulary of the subscription properties
-/
namespace Verif.Subs
open Common

/-- Everything that can happen. -/
def Reaches (s : S) : Prop := Reachable (fun t => t = {}) step s

/-- The callback of `w` is called in this step. -/
def Calls (s s' : S) (w : Nat) : Prop := (s'.th w).got = (s.th w).got + 1

/-- Nobody is between setting the condition and the end of the notification that follows. -/
def Told (s : S) : Prop := ∀ i, (s.th i).pc ≠ .setN true ∧ (s.th i).pc ≠ .n2 true

end Verif.Subs
