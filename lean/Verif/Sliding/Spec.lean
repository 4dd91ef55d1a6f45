import Verif.Sliding.Model
/-!
A log of increments, and sums over windows of it.
-/
namespace Verif.Sliding

/-- The increments since the last reset, each with its slot, and the current slot: the largest the clock has shown so far. -/
structure Log where
  entries : List (Nat × Int)
  now : Nat

/-- The sum of the increments of the slots that satisfy `p`. -/
def Log.sumOf (l : Log) (p : Nat → Bool) : Int := ((l.entries.filter fun e => p e.1).map (·.2)).sum

/-- What the calls return: sums over the last `num` slots, with and without the current one. -/
def Log.step (num : Nat) (l : Log) : Op → Option Int × Log
  | .incBy now d => (none, ⟨l.entries ++ [(max l.now now, d)], max l.now now⟩)
  | .sum now => (some (Log.sumOf l fun s => s + num > max l.now now), ⟨l.entries, max l.now now⟩)
  | .sumTail now =>
    (some (Log.sumOf l fun s => s + num > max l.now now && s < max l.now now), ⟨l.entries, max l.now now⟩)
  | .reset => (none, ⟨[], l.now⟩)

def Log.run (num : Nat) (l : Log) : List Op → List (Option Int)
  | [] => []
  | op :: ops => (l.step num op).1 :: (l.step num op).2.run num ops

end Verif.Sliding
