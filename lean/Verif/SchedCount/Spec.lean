import Verif.SchedCount.Model
/-!
# What the counters should say
-/
namespace Verif.SchedCount

/-- The sum of `w` over the workers that were started, are on thread `t` now and have not finished. -/
def total (wk : Nat → Bool) (s : S) (w : Nat → Nat) (t : Nat) : Int :=
  (s.born.map fun f => if wk f ∧ s.loc f = .on t then (w f : Int) else 0).sum

/-- The states that can be reached. -/
abbrev Ok (wk : Nat → Bool) (sz : Nat → Nat) : S → Prop := Verif.Common.Reachable (· = init) (step wk sz)

end Verif.SchedCount
