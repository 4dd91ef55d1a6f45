import Verif.Http.Model
/-! Words used in the statements of C74, C75 and C76. -/
namespace Verif.Http
open Verif.Common

/-- No write and no read of the call ends with `need_buffer` or `body_limit`. -/
def Call.noLimit (x : Call) : Prop := .limit ∉ x.w ∧ .limit ∉ x.r

/-- A call in which nothing fails. -/
def Call.fine (req : Nat) : Call := ⟨req, [], []⟩

/-- The server is busy. -/
def Busy (st : Nat) : Prop := st = 429 ∨ (500 ≤ st ∧ st < 600)

/-- The response accepts the request. -/
def Accepted (st : Nat) : Prop := st = 200 ∨ st = 201 ∨ st = 206 ∨ st = 308

/-- The text is this word of small letters, each of them in capitals or not. -/
def Spells : List Nat → List Nat → Prop
  | [], [] => True
  | c :: w, l :: ls => (c = l ∨ c + 32 = l) ∧ Spells w ls
  | _, _ => False

/-- The text has the word "bearer", each letter in capitals or not. -/
def HasBearer (a : List Nat) : Prop :=
  ∃ x w y, a = x ++ w ++ y ∧ Spells w [98, 101, 97, 114, 101, 114]

/-- The server asks for other credentials: 401 with a challenge, or 403 with a challenge that has the word "bearer", in capitals or
not. -/
def Challenged (st : Nat) (auth : Option (List Nat)) : Prop :=
  (st = 401 ∧ auth ≠ none) ∨ (st = 403 ∧ ∃ a, auth = some a ∧ HasBearer a)

/-- The rounds after which the sender tries again, with the error it returns if there is no other round. -/
inductive Retried : Att → Ret → Prop
  | closed (e) : Retried (.closed e) (.passed e)
  | busy {st} (keep auth rf) : Busy st → Retried (.resp st keep auth none rf) .tryAgain
  | challenged {st auth} (keep) : Challenged st auth → Retried (.resp st keep auth none none) .denied
  | unexpected {st auth} (keep rf) : ¬ Accepted st → ¬ Busy st → ¬ Challenged st auth → st ≠ 403 → st ≠ 404 → ¬ (300 ≤ st ∧ st < 400) →
      Retried (.resp st keep auth none rf) .badMessage

/-- The rounds that end the call, with what it returns. -/
inductive Decided : Att → Ret → Prop
  | accepted {st} (keep auth dr rf) : Accepted st → Decided (.resp st keep auth dr rf) .ok
  | noHandle (e) : Decided (.noHandle e) (.passed e)
  | failed (e) : Decided (.failed e) (.passed e)
  | body {st} (keep auth e io rf) : ¬ Accepted st → Decided (.resp st keep auth (some (e, io)) rf) (.passed e)
  | refresh {st auth} (keep e) : Challenged st auth → Decided (.resp st keep auth none (some e)) (.passed e)
  | forbidden {auth} (keep rf) : ¬ Challenged 403 auth → Decided (.resp 403 keep auth none rf) .notPermitted
  | missing (keep auth rf) : Decided (.resp 404 keep auth none rf) .noFile
  | redirect {st} (keep auth rf) : 300 ≤ st → st < 400 → st ≠ 308 → Decided (.resp st keep auth none rf) .refused

end Verif.Http
