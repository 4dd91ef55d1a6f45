import Verif.Common.TS
/-!
`util::AcceptServer` (util/fibers/accept_server.cc): opening the listening socket, and the life of the accept loops.

Simplifications. What each system call answers is part of the input. An accept loop is something that runs and ends (its contents are
C64 to C67). The counter of `Wait` is a number (C22). `Run`, `Wait` and `AddListener` are called by one fiber at a time.
-/
namespace Verif.Accept
open Verif.Common

inductive Fam
  | v4
  | v6
  | other
deriving DecidableEq, Repr

abbrev Err := Nat

/-- An address of `getaddrinfo`, with the errors of `Create`, `ConfigureServerSocket`, `Bind` and `Listen` for it. -/
structure Addr where
  fam : Fam
  create : Option Err
  cfg : Option Err
  bind : Option Err
  listen : Option Err
deriving DecidableEq, Repr

/-- The loop over the addresses for one family (accept_server.cc 31-49): the address found, and `ec`. -/
def inner (f : Fam) : List Addr → Option Err → Option Addr × Option Err
  | [], ec => (none, ec)
  | a :: as, ec =>
    if a.fam ≠ f then inner f as ec
    else if a.create ≠ none then inner f as ec
    else match a.cfg, a.bind, a.listen with
      | some e, _, _ => (none, some e)
      | none, some e, _ => (none, some e)
      | none, none, some e => (none, some e)
      | none, none, none => (some a, none)

/-- `CreateServerSocket` (accept_server.cc 24-53): an address, or an error code, which may be that for success. -/
def createServerSocket (addrs : List Addr) : Addr ⊕ Option Err :=
  match inner .v4 addrs none with
  | (some a, _) => .inl a
  | (none, ec) => match inner .v6 addrs ec with
    | (some a, _) => .inl a
    | (none, ec) => .inr ec

/-- `AddListener` (accept_server.cc 126-173): the error code returned, and the address of the listener if it was added. -/
def addListener (gai : Bool) (addrs : List Addr) : Option Err × Option Addr :=
  if gai then
    match createServerSocket addrs with
    | .inl a => (none, some a)
    | .inr ec => (ec, none)
  else (some 99, none)

/-- `AddUDSListener` (accept_server.cc 175-202) with `ListenUDS` (fiber_socket_base.cc 122-148) for a path of `len` bytes: the error code, whether the
listener was added, and whether the socket is open when it is destroyed. -/
def addUds (create cfg : Option Err) (len : Nat) (bind chmod listen : Option Err) : Option Err × Bool × Bool :=
  match create with
  | some e => (some e, false, false)
  | none => match cfg with
    | some e => (some e, false, true)
    | none =>
      if len + 1 ≥ 108 then (some 36, false, true)
      else match bind, chmod, listen with
        | some e, _, _ => (some e, false, false)
        | none, some e, _ => (some e, false, false)
        | none, none, some e => (some e, false, false)
        | none, none, none => (none, true, false)

/-! ### `Run` and `Wait` (accept_server.cc 76-115) -/

structure W where
  /-- the size of `list_interface_` -/
  n : Nat
  /-- the listeners whose accept loops were dispatched and have not ended -/
  running : List Nat
  /-- `ref_bc_` -/
  cnt : Nat
  wasRun : Bool
  /-- a `CHECK` failed -/
  bad : Bool
deriving DecidableEq, Repr

inductive WAct
  | add
  | run
  | loopEnds (i : Nat)
  | wait
deriving DecidableEq, Repr

/-- `AddListener`'s check of `was_run_` (129), `Run` (76-94), the end of a dispatched loop (89-90), and `Wait` (106-115) returning. -/
def wstep (s : W) : WAct → Option W
  | .add => some (if s.wasRun then { s with bad := true } else { s with n := s.n + 1 })
  | .run => some { s with cnt := s.cnt + s.n, running := s.running ++ List.range s.n, wasRun := true }
  | .loopEnds i => if i ∈ s.running then some { s with running := s.running.erase i, cnt := s.cnt - 1 } else none
  | .wait =>
    if s.wasRun then (if s.cnt = 0 then some { s with wasRun := false } else none)
    else some (if s.n = 0 then s else { s with bad := true })

def W.init : W := ⟨0, [], 0, false, false⟩

end Verif.Accept
