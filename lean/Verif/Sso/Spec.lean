import Verif.Sso.Model
/-! Words used in the statements of C84. -/
namespace Verif.Sso
open Verif.Common

/-- The string `i` exists, at some address, and this is its value. -/
def Value (s : St) (i : Nat) (bs : List Nat) : Prop := ∃ a r, s.objs a = some (r, some i) ∧ content s r = some bs

/-- A plain `std::string_view` of the string at `a`, whatever its length. -/
def plain (s : St) (a : Nat) : Option View :=
  match s.objs a with
  | some (r, _) => (content s r).map (fun bs => .far (dataPtr a r) bs.length)
  | none => none

abbrev Run := Reachable (fun s => s = init) step

end Verif.Sso
