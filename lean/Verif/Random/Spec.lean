import Verif.Random.Model
import Mathlib.Logic.Function.Iterate
/-!
# Vocabulary of the random number properties
-/
namespace Verif.Random

/-- The state of a `Xoroshiro128p` after `n` calls. -/
def after (n : Nat) (s : S) : S := next^[n] s

/-- What its call number `n` returns, counting from zero. -/
def output (n : Nat) (s : S) : W := result (after n s)

/-- What call number `n` of a `SplitMix64` returns, counting from zero. -/
def smOutput (n : Nat) (s : W) : W := (smCall ((fun t => (smCall t).2)^[n] s)).1

/-- Two generators meet: the one started in `a` and the one started in `b` pass through a common state during `len`
calls each. -/
def Overlap (len : Nat) (a b : S) : Prop := ∃ m n, m < len ∧ n < len ∧ after m a = after n b

/-- The state after `n` calls of `jump`. -/
def jumps (n : Nat) (s : S) : S := jump^[n] s

end Verif.Random
