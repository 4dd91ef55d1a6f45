import Verif.PodArray.Model

/-!
# A growable array

A list of elements; `none` is an element that was never written (after `resize`). Operations outside
their documented domain are not allowed: elements of the wrong size, `pop` of an empty array, an
insertion point past the end.
-/
namespace Verif.PodArray

abbrev Spec := List (Option (List Nat))

/-- The elements have the size of the element type. -/
def sized (k : Nat) (xs : List (List Nat)) : Prop := ∀ x ∈ xs, x.length = k

instance (k : Nat) (xs : List (List Nat)) : Decidable (sized k xs) := by
  unfold sized; infer_instance

/-- Truncate to `n` elements or pad with `x`. -/
def setLen (n : Nat) (x : Option (List Nat)) (l : Spec) : Spec := l.take n ++ List.replicate (n - l.length) x

def specStep (k : Nat) (l : Spec) : Op → Option Spec
  | .push x => if x.length = k then some (l ++ [some x]) else none
  | .pop => if l = [] then none else some l.dropLast
  | .reserve _ => some l
  | .resize n => some (setLen n none l)
  | .fill n x => if x.length = k then some (setLen n (some x) l) else none
  | .append xs => if sized k xs then some (l ++ xs.map some) else none
  | .insert i xs => if sized k xs ∧ i ≤ l.length then some (l.take i ++ xs.map some ++ l.drop i) else none
  | .assignN n x => if x.length = k then some (List.replicate n (some x)) else none
  | .assign xs => if sized k xs then some (xs.map some) else none
  | .clear => some []

def specRun (k : Nat) (l : Spec) : List Op → Option Spec
  | [] => some l
  | o :: os =>
    match specStep k l o with
    | none => none
    | some l => specRun k l os

/-- The array has the size and the (written) elements of the list, its elements fit its memory, and its
destructor is well-defined. -/
def Holds (c : Cfg) (s : St) (l : Spec) : Prop :=
  size c s = l.length ∧ (∀ (i : Nat) (x : List Nat), l[i]? = some (some x) → get c s i = x) ∧
  size c s ≤ capacity c s ∧ destroy s = some ()

end Verif.PodArray
