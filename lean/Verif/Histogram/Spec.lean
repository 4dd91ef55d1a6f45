import Verif.Histogram.Model
/-! What a histogram is about: a multiset of samples `(value, count)`. -/
namespace Verif.Histogram

abbrev Samples := List (Rat × Nat)

/-- The histograms one can build with `Add`, `Merge` and `Clear`, with the samples that went in. -/
inductive Built : H → Samples → Prop
  | clear : Built clear []
  | add {h xs} (v c) : Built h xs → Built (h.add v c) (xs ++ [(v, c)])
  | merge {h o xs ys} : Built h xs → Built o ys → Built (h.merge o) (xs ++ ys)

/-- Number of samples with a property. -/
def countIf (f : Rat → Bool) (xs : Samples) : Nat := (xs.map fun x => if f x.1 then x.2 else 0).sum

/-- Number of samples. -/
def total (xs : Samples) : Nat := (xs.map fun x => x.2).sum

/-- Sum of the samples. -/
def sumOf (xs : Samples) : Rat := (xs.map fun x => x.1 * (x.2 : Rat)).sum

/-- Value `v` belongs to bucket `b`: below the limit `b` and not below the limit `b - 1`; the first bucket is open below, the
last one above. -/
def InBucket (b : Nat) (v : Rat) : Prop := b < 154 ∧ (b = 0 ∨ limit (b - 1) ≤ v) ∧ (b = 153 ∨ v < limit b)

end Verif.Histogram
