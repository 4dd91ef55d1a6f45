import Verif.Accept.Model
/-! Words used in the statement of C78. -/
namespace Verif.Accept
open Verif.Common

/-- A socket for IPv4 or IPv6 can be made for the address. -/
def Addr.usable (a : Addr) : Prop := (a.fam = .v4 ∨ a.fam = .v6) ∧ a.create = none

/-- One can listen at the address. -/
def Addr.good (a : Addr) : Prop := a.usable ∧ a.cfg = none ∧ a.bind = none ∧ a.listen = none

end Verif.Accept
