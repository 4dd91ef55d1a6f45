/-! What C85 is about: a machine division is given by its quotient and remainder. -/
namespace Verif.Divide

/-- A function that divides a number of two words `u1`, `u0` by one of one word, as long as the quotient fits. -/
def DividesWide (w : Nat) (wide : Nat → Nat → Nat → Option (Nat × Nat)) : Prop :=
  ∀ u1 u0 v, v < 2 ^ w → u1 < v → u0 < 2 ^ w → wide u1 u0 v = some ((u1 * 2 ^ w + u0) / v, (u1 * 2 ^ w + u0) % v)

end Verif.Divide
