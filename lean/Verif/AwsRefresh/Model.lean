import Verif.Common.TS
/-!
Model of the refresh of the credentials of Amazon by concurrent fibers: util/cloud/aws/aws_creds_provider.cc 531-572 and 672-695, aws_creds_provider.h 20-31. Every step is one access to the shared state. The clock is one number of seconds: the
code uses the system clock for the expiry and the steady clock for the deadline.
-/
namespace Verif.AwsRefresh
open Verif.Common

/-- The two calls. -/
inductive Kind where
  | token
  | ifExpiring
deriving DecidableEq, Repr

/-- What they return: `RefreshToken` no error, an error or a timeout; `RefreshIfExpiring` true (`yes`), false (`no`), an error or a timeout. -/
inductive Ret where
  | ok
  | yes
  | no
  | err
  | timeout
deriving DecidableEq, Repr

/-- aws_creds_provider.h 118: where the credentials came from; `remote` stands for web identity, container and instance metadata. -/
inductive Source where
  | none
  | static
  | remote
deriving DecidableEq, Repr

/-- A call: its kind, and for the statements when it began: the time, the version of the credentials and the number of refreshes that had ended. -/
structure Call where
  kind : Kind
  t0 : Nat
  v0 : Nat
  f0 : Nat
deriving DecidableEq, Repr

/-- Where a fiber is: before the exchange of the flag, waiting, before the check of the expiry, before the exchange, in `RefreshTokenImpl`, after it, after the call. -/
inductive Pc where
  | idle
  | tTry (c : Call)
  | tWait (c : Call)
  | iCheck (c : Call)
  | iTry (c : Call)
  | fetch (c : Call)
  | fetched (c : Call) (ok : Bool)
  | done (c : Call) (r : Ret)
deriving DecidableEq, Repr

/-- The shared state: `is_refreshing_`, the credentials as their version and their expiry (0 is none), the clock; for the statements, the number of refreshes that have ended. -/
structure St where
  flag : Bool
  version : Nat
  expiry : Nat
  now : Nat
  ended : Nat
  pc : Nat → Pc

/-- aws_creds_provider.h 27-29 `IsExpiring` -/
def isExpiring (s : St) : Bool := s.expiry > 0 && s.now + 30 ≥ s.expiry

/-- aws_creds_provider.cc 41: `kRefreshWaitTimeout` in seconds. -/
def waitTimeout : Nat := 30

/-- What happens next: time passes; a fiber calls; a fiber moves. A fetch ends with new credentials of some expiry, or with an error. -/
inductive Act where
  | tick
  | call (i : Nat) (k : Kind)
  | go (i : Nat)
  | fetchOk (i : Nat) (expiry : Nat)
  | fetchErr (i : Nat)
deriving DecidableEq, Repr

def St.set (s : St) (i : Nat) (p : Pc) : St := { s with pc := upd s.pc i p }

/-- aws_creds_provider.cc 533-537, 681-687: what the refreshing fiber returns. -/
def ownerRet (k : Kind) (ok : Bool) : Ret := if ok then (match k with | .token => .ok | .ifExpiring => .yes) else .err

/-- 531-572, 672-695 -/
def step (src : Source) (s : St) : Act → Option St
  | .tick => some { s with now := s.now + 1 }
  | .call i k => match s.pc i with
    | .idle | .done _ _ => some (s.set i (match k with
      | .token => .tTry ⟨k, s.now, s.version, s.ended⟩
      | .ifExpiring => .iCheck ⟨k, s.now, s.version, s.ended⟩))
    | _ => none
  | .go i => match s.pc i with
    | .tTry c => if s.flag then some (s.set i (.tWait c)) else some { s.set i (.fetch c) with flag := true }
    | .tWait c => if s.flag then (if s.now ≥ c.t0 + waitTimeout then some (s.set i (.done c .timeout)) else some s) else some (s.set i (.done c .ok))
    | .iCheck c => if isExpiring s then some (s.set i (.iTry c)) else some (s.set i (.done c .no))
    | .iTry c => if s.flag then (if s.now ≥ c.t0 + waitTimeout then some (s.set i (.done c .timeout)) else some (s.set i (.iCheck c))) else some { s.set i (.fetch c) with flag := true }
    | .fetch c => match src with
      | .static => some (s.set i (.fetched c true))
      | .none => some (s.set i (.fetched c false))
      | .remote => none
    | .fetched c ok => some { s.set i (.done c (ownerRet c.kind ok)) with flag := false, ended := s.ended + 1 }
    | _ => none
  | .fetchOk i e => match s.pc i, src with
    | .fetch c, .remote => some { s.set i (.fetched c true) with version := s.version + 1, expiry := e }
    | _, _ => none
  | .fetchErr i => match s.pc i, src with
    | .fetch c, .remote => some (s.set i (.fetched c false))
    | _, _ => none

/-- Credentials of some expiry were loaded; nobody refreshes. Static credentials have no expiry. -/
def Init (src : Source) (s : St) : Prop := s.flag = false ∧ (∀ i, s.pc i = .idle) ∧ (src = .static → s.expiry = 0)

end Verif.AwsRefresh
