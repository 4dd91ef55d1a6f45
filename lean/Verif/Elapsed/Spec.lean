import Verif.Elapsed.Model
/-!
# Printing with three significant digits
-/
namespace Verif.Elapsed

/-- `%0.3g` falls back to the exponent notation ("1e+03") when the rounded value is 1000 or more, that
is, from 999.5 on. -/
def Exponent (num unit : Nat) : Prop := 1999 * unit ≤ 2 * num

/-- With three significant digits the value is at least 1: it is at least 0.9995. -/
def AtLeastOne (num unit : Nat) : Prop := 1999 * unit ≤ 2000 * num

/-- `tenths` is the nearest number with one decimal, which is what `%0.3g` prints between 10 and 100. -/
def Tenths (num unit tenths : Nat) : Prop := 2 * (tenths * unit) ≤ 20 * num + unit ∧ 20 * num ≤ 2 * (tenths * unit) + unit

end Verif.Elapsed
