import Verif.Load.Model
/-!
# Waits and windows
-/
namespace Verif.Load

/-- When the newest wait ended. -/
def lastEnd (t0 : Nat) : List (Nat × Nat) → Nat
  | [] => t0
  | w :: _ => w.2

/-- The counter does not go back: every wait starts after the one before it ended, and the times leave
room for a period below 2^64. -/
def Valid (period t0 : Nat) : List (Nat × Nat) → Prop
  | [] => t0 + period < 2 ^ 64
  | w :: h => lastEnd t0 h ≤ w.1 ∧ w.1 ≤ w.2 ∧ w.2 + period < 2 ^ 64 ∧ Valid period t0 h

/-- The time spent in the waits. -/
def total (h : List (Nat × Nat)) : Nat := (h.map (fun w => w.2 - w.1)).sum

/-- The times at which the tasks ran. -/
def ranAt : List Nat → List Bool → List Nat
  | t :: ts, b :: bs => if b then t :: ranAt ts bs else ranAt ts bs
  | _, _ => []

end Verif.Load
