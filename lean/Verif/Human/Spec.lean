import Verif.Text.Str
namespace Verif.Human.Spec
open Verif.Text

/-- The unit letters and the power of 1024 they stand for. -/
def letter (k : Nat) : List Byte := (lit "Bb" :: lit "Kk" :: lit "Mm" :: lit "Gg" :: lit "Tt" :: lit "Pp" :: [lit "Ee"]).getD k []

/-- What may follow the number: nothing, or a unit letter, an optional `i` and an optional `B` or `b`. -/
def Suffix (s : Str) (k : Nat) : Prop :=
  (s = [] ∧ k = 0) ∨ ∃ c, c ∈ letter k ∧ (∃ i b, (i = [] ∨ i = lit "i") ∧ (b = [] ∨ b = lit "B" ∨ b = lit "b") ∧ s = c :: (i ++ b))

end Verif.Human.Spec
