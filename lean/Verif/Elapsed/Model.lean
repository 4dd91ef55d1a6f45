/-!
# Model of `strings::HumanReadableElapsedTime`

strings/human_readable.cc:84-135. Simplified: the duration is a whole number of nanoseconds, and the
products and quotients, which the code computes in doubles, are exact. The unit in the result is its
length in nanoseconds: a month is 30.436875 days and a year 365.2425 days.
-/
namespace Verif.Elapsed

def us : Nat := 1000
def ms : Nat := 1000000
def sec : Nat := 1000000000
def minute : Nat := 60 * sec
def hour : Nat := 60 * minute
def day : Nat := 24 * hour
/-- 30.436875 days are 2629746 seconds. -/
def month : Nat := 2629746 * sec
/-- 365.2425 days are 31556952 seconds. -/
def year : Nat := 31556952 * sec

/-- What is printed: a sign, and `num / unit` with three significant digits (`%0.3g`). -/
structure Out where
  neg : Bool
  num : Nat
  unit : Nat
deriving DecidableEq, Repr

/-- strings/human_readable.cc:92-135, for a duration that is not negative. -/
def pick (t : Nat) : Nat × Nat :=
  if 2 * t < 1999 * us then (t, us)
  else
    let m := if 1000 * t ≥ 995 * ms ∧ t < ms then ms else t
    if 2 * m < 1999 * ms then (m, ms)
    else if t < 60 * sec then (t, sec)
    else if t < 60 * minute then (t, minute)
    else if t < 24 * hour then (t, hour)
    else if t < 30 * day then (t, day)
    else if t < year then (t, month)
    else (t, year)

/-- strings/human_readable.cc:84-90. -/
def shown (v : Int) : Out := ⟨decide (v < 0), (pick v.natAbs).1, (pick v.natAbs).2⟩

end Verif.Elapsed
