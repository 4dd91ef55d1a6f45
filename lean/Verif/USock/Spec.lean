import Verif.USock.Model
/-! Words used in the statements of C79 and C80. -/
namespace Verif.USock
open Verif.Common

/-- Any history. -/
def Reached (s : S) : Prop := Reachable (· = S.init) step s

/-- No call is in progress on the socket. -/
def S.quiet (s : S) (o : Nat) : Prop := ∀ id r, s.reqs id = some r → r.sock ≠ o

open Classical in
/-- The steps of programs that close a socket only when no call is in progress on it. -/
noncomputable def dstep (s : S) (a : Act) : Option S :=
  match a with
  | .close o => if s.quiet o then step s a else none
  | _ => step s a

/-- Histories of such programs. -/
def Disciplined (s : S) : Prop := Reachable (· = S.init) dstep s

/-- The bytes a call says it has sent. -/
def Ret.sentBytes (r : Ret) : List Nat :=
  match r.res, r.arg with
  | .sent n, .send d => d.take n
  | _, _ => []

/-- The bytes a call says it has received. -/
def Ret.gotBytes (r : Ret) : List Nat :=
  match r.res with
  | .got bs => bs
  | _ => []

/-- The calls made on the socket that had file `f`, in the order of their returns. -/
def S.callsOn (s : S) (f : Nat) : List Ret := s.log.filter (fun r => r.file = some f)

end Verif.USock
