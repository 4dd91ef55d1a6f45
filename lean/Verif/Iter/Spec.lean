import Verif.Iter.Model
/-!
# Vocabulary of the range adapters
-/
namespace Verif.Iter

/-- A for loop over the range ends, and its body sees exactly the values `l`, in this order. -/
def Yields {σ β : Type} (k : Kind σ β) (r : Range σ) (l : List β) : Prop := ∃ n, forLoop k n r.first r.last = some l

/-- The results of a function with state, called on the elements of a list from left to right. -/
def results {φ α β : Type} (f : φ → α → β × φ) : φ → List α → List β
  | _, [] => []
  | q, x :: l => (f q x).1 :: results f (f q x).2 l

/-- The range of a whole array. -/
def whole {α : Type} (l : List α) : Range Nat := ⟨0, l.length⟩

end Verif.Iter
