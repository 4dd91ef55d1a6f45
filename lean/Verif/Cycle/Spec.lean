/-!
# Vocabulary of the cycle clock properties

A measurement is a pair: the counter when the work began and when it ended. A history is a list of them, the last first.
-/
namespace Verif.Cycle

/-- The millisecond, since the counter started, in which a measurement ended. -/
def ms (f : Nat) (m : Nat × Nat) : Nat := m.2 / (f / 1000)

/-- The cycles of the measurements that ended in the same period of `w` milliseconds as the last one. -/
def busy (f w : Nat) : List (Nat × Nat) → Nat
  | [] => 0
  | m :: h => ((m :: h).filter fun x => ms f x / w == ms f m / w).foldr (fun x acc => (x.2 - x.1) + acc) 0

/-- What the counter of one thread gives: measurements one after the other, each with its beginning before its end, and no
two consecutive ones 2^32 milliseconds apart (about 50 days). -/
def Sane (f : Nat) : List (Nat × Nat) → Prop
  | [] => True
  | [m] => m.1 ≤ m.2 ∧ m.2 < 2 ^ 64
  | m :: p :: h => p.2 ≤ m.1 ∧ m.1 ≤ m.2 ∧ m.2 < 2 ^ 64 ∧ ms f m - ms f p < 2 ^ 32 ∧ Sane f (p :: h)

/-- Whole microseconds in a number of cycles. -/
def micros (f cycles : Nat) : Nat := cycles * 1000000 / f

end Verif.Cycle
