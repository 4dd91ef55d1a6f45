/-!
# Model of `strings::HumanReadableNum`

strings/human_readable.cc:25-48. `round m` is the number of hundredths that `%.2f` prints for
`m / 1000.0`; it is a parameter, since a tie depends on how `m / 1000.0` is rounded to a double.
-/
namespace Verif.HumanNum

/-- What is printed: a whole number, hundredths with a unit letter (an index into `kMBT`; 4 is the
terminating NUL), or a number of 10^15 and more in exponent notation (its digits are left out); or
nothing, because the negation is undefined or the CHECK fails. -/
inductive Out
  | undef
  | checkFailed
  | plain (neg : Bool) (n : Nat)
  | scaled (neg : Bool) (hundredths unit : Nat)
  | expo (neg : Bool) (n : Nat)
deriving DecidableEq, Repr

/-- strings/human_readable.cc:40-44: the loop that picks the unit; `none` if the CHECK fails. `units` has
four letters and a NUL. The fuel is enough for any 64 bit number. -/
def pick : (fuel : Nat) → (n unit : Nat) → Option (Nat × Nat)
  | 0, _, _ => none
  | fuel + 1, n, unit =>
    if n ≥ 1000000 then
      if unit + 1 < 5 then pick fuel (n / 1000) (unit + 1) else none
    else some (n, unit)

/-- strings/human_readable.cc:25-48. -/
def shown (round : Nat → Nat) (v : Int) : Out :=
  if v = -2 ^ 63 then .undef
  else
    let neg := decide (v < 0)
    let n := v.natAbs
    if n < 1000 then .plain neg n
    else if n ≥ 10 ^ 15 then .expo neg n
    else match pick 8 n 0 with
      | none => .checkFailed
      | some (m, u) => .scaled neg (round m) u

end Verif.HumanNum
