import Verif.AwsRefresh.Model
/-! Words for the statements about refreshes. -/
namespace Verif.AwsRefresh.Spec
open Verif.Common

/-- The fiber is in the refresh proper, with the flag. -/
def Refreshing (s : St) (i : Nat) : Prop := (∃ c, s.pc i = .fetch c) ∨ ∃ c ok, s.pc i = .fetched c ok

/-- The fiber's last call returned this. -/
def Returned (s : St) (i : Nat) (k : Kind) (c : Call) (r : Ret) : Prop := s.pc i = .done c r ∧ c.kind = k

/-- The fiber is in a call. -/
def Busy (s : St) (i : Nat) : Prop := s.pc i ≠ .idle ∧ ∀ c r, s.pc i ≠ .done c r

end Verif.AwsRefresh.Spec
