import Mathlib.Analysis.SpecialFunctions.Pow.Real
/-!
# Model of the Zipf generator (base/zipf_gen.h)

The generator over the reals: `double` is replaced by exact real numbers, so rounding is left out, except for the conversion of the smallest item
to `double` (`toDouble`, used by `firstItem`). `u` is the uniform number in [0, 1) that `Next` draws.
-/
namespace Verif.Zipf

/-- `Zeta(0, n, theta, 0)` (57-63). -/
noncomputable def zeta (θ : ℝ) : ℕ → ℝ
  | 0 => 0
  | n + 1 => zeta θ n + 1 / ((n + 1 : ℕ) : ℝ) ^ θ

/-- `Eta` (47-49). -/
noncomputable def eta (θ : ℝ) (n : ℕ) : ℝ := (1 - (2 / (n : ℝ)) ^ (1 - θ)) / (1 - zeta θ 2 / zeta θ n)

/-- `alpha_` (38). -/
noncomputable def alpha (θ : ℝ) : ℝ := 1 / (1 - θ)

/-- `res` of `Next` (73-87) for `n` items starting at `base`. -/
noncomputable def res (base n : ℕ) (θ u : ℝ) : ℝ :=
  if u * zeta θ n < 1 then base
  else if u * zeta θ n < 1 + (1 / 2 : ℝ) ^ θ then base + 1
  else base + n * (eta θ n * u - eta θ n + 1) ^ alpha θ

/-- The returned number: the conversion to `uint64_t` drops the fraction. -/
noncomputable def next (base n : ℕ) (θ u : ℝ) : ℕ := ⌊res base n θ u⌋₊

/-- A number below 2^54 converted to `double`: nearest, ties to even. -/
def toDouble (m : ℕ) : ℕ := if m < 2 ^ 53 then m else if m % 4 = 3 then m + 1 else m - m % 2

/-- The first branch of `Next` as the code computes it: the smallest item through `double` (79-80). -/
def firstItem (base : ℕ) : ℕ := toDouble base

end Verif.Zipf
