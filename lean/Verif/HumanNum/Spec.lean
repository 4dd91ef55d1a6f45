import Verif.HumanNum.Model
/-!
# Rounding to two decimals
-/
namespace Verif.HumanNum

/-- `round m` hundredths is a number with two decimals nearest to `m` thousandths. -/
def Nearest (round : Nat → Nat) : Prop := ∀ m, 10 * round m ≤ m + 5 ∧ m ≤ 10 * round m + 5

end Verif.HumanNum
