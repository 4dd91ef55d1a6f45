import Verif.SockBase.Model
/-!
# Vocabulary of the socket ownership properties
-/
namespace Verif.SockBase
open Verif.Common

/-- The descriptors that were opened and neither closed nor given away, in the order of opening; what a call does to them. -/
def owned (log : List Sys) : List Int :=
  log.foldl (fun l e => match e with
    | .socket _ n => l ++ [(n : Int)]
    | .close d => l.erase d
    | .detach d => l.erase d
    | _ => l) []

/-- The descriptor that a system call is about. -/
def Sys.on : Sys → Option Int
  | .bind d _ | .listen d _ | .shutdown d | .send d | .recv d | .close d => some d
  | _ => none

/-- The socket can be used: it was opened, and not shut down, closed or given away since. -/
def up (log : List Sys) : Bool :=
  log.foldl (fun b e => match e with
    | .socket _ _ => true
    | .shutdown _ | .close _ | .detach _ => false
    | _ => b) false

/-- The socket opened last is a unix socket. -/
def lastUds (log : List Sys) : Bool := log.foldl (fun b e => match e with | .socket u _ => u | _ => b) false

/-- Every system call is about a descriptor that is owned then, except that `listen` may be called with -1. -/
def CallsOwn (log : List Sys) : Prop :=
  ∀ a e b, log = a ++ e :: b → ∀ d, e.on = some d → d ∈ owned a ∨ ∃ ok, e = .listen (-1) ok

/-- Operations that prepare a socket for accepting. -/
def Op.opens : Op → Bool
  | .bind _ _ | .listen _ | .listenPort _ _ _ | .listenUDS _ _ _ _ _ => true
  | _ => false

/-- A proper use: `Create` only on a closed socket, as its debug check says, `Detach` only on an open one. -/
def Proper (s : S) : Op → Prop
  | .create _ _ => s.fd = -1
  | .detach => s.fd ≥ 0
  | _ => True


/-- The states after proper histories. -/
inductive Hist : S → Prop
  | new (p : Bool) : Hist { pro := p }
  | op {s s' : S} {o : Op} {e : Option Err} : Hist s → Proper s o → run s o = some (e, s') → Hist s'

end Verif.SockBase
