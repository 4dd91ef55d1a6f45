import Verif.Text.Str
/-!
Model of `strings/human_readable.cc`: parsing and printing byte sizes.

A finite non-negative `double` is a natural number of units of 2^-E, with E = 1074 for the smallest positive double; the model and the
theorems are for any E (at least 1), so that 2^1074 need not be computed. `strtod` is a parameter: it
gives the number of characters converted and the value.
-/
namespace Verif.Human
open Verif.Text

/-- One, in units of 2^-E. -/
def one (E : Nat) : Nat := 2 ^ E

/-- A `double`. -/
inductive Dbl
  | fin (neg : Bool) (units : Nat)
  | inf (neg : Bool)
  | nan
  deriving DecidableEq

/-- `strtod`: `none` when nothing is converted, otherwise the number of characters used and the value. -/
abbrev Strtod := Str → Option (Nat × Dbl)

/-- Rounding to 53 significant bits, ties to even (IEEE 754, the default mode). -/
def rne (m : Nat) : Nat :=
  if m.log2 < 53 then m
  else
    let u := 2 ^ (m.log2 - 52)
    if 2 * (m % u) < u then m / u * u
    else if u < 2 * (m % u) then (m / u + 1) * u
    else if m / u % 2 = 0 then m / u * u else (m / u + 1) * u

/-- Multiplication by 2^(10 k): exact, unless the result is too large for a double. -/
def scaleBy (E k : Nat) : Dbl → Dbl
  | .fin neg n => if n * 2 ^ (10 * k) < 2 ^ 1024 * one E then .fin neg (n * 2 ^ (10 * k)) else .inf neg
  | d => d

/-- `int64_t(d)`; undefined if the truncated value is not in range. -/
def toInt64 (E : Nat) : Dbl → Option Int
  | .fin false n => if n / one E < 2 ^ 63 then some (n / one E : Nat) else none
  | .fin true n => if n / one E ≤ 2 ^ 63 then some (-(n / one E : Nat)) else none
  | _ => none

/-- strings/human_readable.cc 152-188: the exponent of 1024 the first character after the number selects -/
def unitOf : Str → Option Nat
  | [] => some 0
  | c :: _ =>
    if c == 69 || c == 101 then some 6
    else if c == 80 || c == 112 then some 5
    else if c == 84 || c == 116 then some 4
    else if c == 71 || c == 103 then some 3
    else if c == 77 || c == 109 then some 2
    else if c == 75 || c == 107 then some 1
    else if c == 66 || c == 98 then some 0
    else none

/-- strings/human_readable.cc 190-201: nothing may remain after the unit, an optional `i` and an optional `B` or `b` -/
def suffixOk : Str → Bool
  | [] => true
  | _ :: r =>
    let r := if r.head? == some 105 then r.tail else r
    let r := if r.head? == some 66 || r.head? == some 98 then r.tail else r
    r.isEmpty

/-- strings/human_readable.cc 203-211: the conversion. The outer `none` is undefined behaviour, the inner one `false`. -/
def finish (E : Nat) (neg : Bool) (d : Dbl) : Option (Option Int) :=
  match toInt64 E d with
  | none => none
  | some i =>
    -- `int64_t(d) > INT64_MAX` is never true
    if i > 2 ^ 63 - 1 then some none
    else match d with
      | .fin isNeg n =>
        if isNeg && n != 0 then some none
        else match toInt64 E (.fin false (rne (n + one E / 2))) with
          | none => none
          | some v => some (some (if neg then -v else v))
      | _ => some none

/-- strings/human_readable.cc 137-212, `ParseHumanReadableBytes(str, &n)`. `s` is the view, `after` the memory behind it up to a NUL:
the code reads the characters as a C string. -/
def parseBytes (E : Nat) (strtod : Strtod) (s after : Str) : Option (Option Int) :=
  if s = [] then some none
  else
    let c := (s ++ after).takeWhile (· != 0)
    let neg := c.head? == some 45
    let c := if neg then c.tail else c
    match strtod c with
    | none => some none
    | some (len, d) =>
      let rest := c.drop len
      match unitOf rest with
      | none => some none
      | some k => if suffixOk rest then finish E neg (scaleBy E k d) else some none

/-- What `HumanReadableNumBytes` prints: a sign, a number with `dec` decimals (`digits / 10^dec`) and a unit (0 is B, 1 is KiB, ...).
The conversion of the number to characters is `snprintf`'s. -/
structure Shown where
  neg : Bool
  digits : Nat
  dec : Nat
  unit : Nat
  deriving DecidableEq, Repr

/-- strings/human_readable.cc 69-75: the loop that picks the unit; the CHECK allows six letters and the terminating NUL. -/
def pickUnit : (fuel : Nat) → Nat → Nat → Option (Nat × Nat)
  | 0, _, _ => none
  | fuel + 1, n, unit =>
    if n ≥ 1024 * 1024 then
      if unit + 1 < 7 then pickUnit fuel (n / 1024) (unit + 1) else none
    else some (n, unit)

/-- `printf("%.*f", dec, n / 1024.0)`: the exact quotient (it is a double) rounded to `dec` decimals, ties to even -/
def fixed (n dec : Nat) : Nat :=
  let q := n * 10 ^ dec / 1024
  let r := n * 10 ^ dec % 1024
  if 2 * r < 1024 then q else if 1024 < 2 * r then q + 1 else if q % 2 = 0 then q else q + 1

/-- strings/human_readable.cc 50-82, `HumanReadableNumBytes` for an `int64_t`; `none` if the CHECK fails -/
def showBytes (v : Int) : Option Shown :=
  if v = -2 ^ 63 then some ⟨true, 8, 0, 6⟩
  else
    let neg := decide (v < 0)
    let n := v.natAbs
    if n < 1024 then some ⟨neg, n, 0, 0⟩
    else match pickUnit 8 n 0 with
      | none => none
      | some (m, unit) => let dec := if unit = 0 then 1 else 2; some ⟨neg, fixed m dec, dec, unit + 1⟩

end Verif.Human
