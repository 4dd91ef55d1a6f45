import Verif.Profilez.Model
/-!
# True answers

The words of property C131.
-/
namespace Verif.Profilez
open Verif.Common

/-- What one answer says about the profile being written before it, and what is written after it; `none`: the answer
is not true. -/
def says (cur : Option Nat) : Ev → Option (Option Nat)
  | .started f => if cur = none then some (some f) else none
  | .already => if cur = none then none else some cur
  | .redirect f => if cur = some f then some none else none
  | .off => if cur = none then some none else none

/-- The profile that is being written after these answers, if all of them were true. -/
def story : List Ev → Option Nat → Option (Option Nat)
  | [], cur => some cur
  | e :: l, cur =>
    match says cur e with
    | none => none
    | some c => story l c

/-- At most one request at a time deals with the profile. -/
def Solo (s : S) : Prop := ∀ t u, rest s t = false → rest s u = false → t = u

/-- The files that redirects point to. -/
def pointed : List Ev → List Nat
  | [] => []
  | .redirect f :: l => f :: pointed l
  | _ :: l => pointed l

end Verif.Profilez
