import Verif.Common.TS
/-!
Name resolution (util/fibers/dns_resolve.cc): the choice of the address, the hand-over of the result to the fiber, and the sockets
that are watched for c-ares.

Simplifications. c-ares is the environment: what it reports, and the calls it makes of `UpdateSocketsCallback`, are inputs. An
address is a number. Polls registered with the proactor are taken from C63.
-/
namespace Verif.Dns
open Verif.Common

/-! ### The result (dns_resolve.cc 115-150) -/

inductive Fam
  | v4
  | v6
  | other
deriving DecidableEq, Repr

structure Node where
  fam : Fam
  addr : Nat
deriving DecidableEq, Repr

inductive Err
  | notAvailable
  | invalid
deriving DecidableEq, Repr

/-- The node that `DnsResolveCallback` uses (129-134). -/
def pick : List Node → Option Node
  | [] => none
  | n :: ns => match ns with
    | m :: _ => if n.fam = .v6 ∧ m.fam = .v4 then some m else some n
    | [] => some n

/-- What the callback writes (124-149): an error or an address. -/
def result (success : Bool) (nodes : List Node) : Err ⊕ Node :=
  match success, pick nodes with
  | true, some n => match n.fam with
    | .other => .inl .invalid
    | _ => .inr n
  | _, _ => .inl .notAvailable

/-! ### Handing over the result -/

/-- A call of `DnsResolve`. `res` is what c-ares will report. -/
structure H where
  res : Err ⊕ Node
  /-- `cb_args.ec` and `dest_ip` -/
  ec : Option Err
  ip : Option Node
  done : Bool
  /-- the fiber was activated -/
  active : Bool
  wrote : Bool
  /-- what the call returned, with what the caller's buffer had then -/
  ret : Option (Option Err × Option Node)
  /-- the fiber went on before the callback had written -/
  early : Bool
  /-- the callback wrote to the arguments of a call that had returned -/
  bad : Bool
deriving DecidableEq, Repr

inductive HAct
  /-- the first part of the callback: `done` and `ActivateOther` (115-122) -/
  | cb1
  /-- the rest of it (124-149) -/
  | cb2
  /-- the fiber goes on and returns -/
  | resume
deriving DecidableEq, Repr

/-- What the rest of the callback writes. -/
def H.write (s : H) : H :=
  match s.res with
  | .inl e => { s with ec := some e, wrote := true }
  | .inr n => { s with ip := some n, wrote := true }

/-- `DnsResolve(host, dest_ip)` with the channel of the process (203-217): the callback runs in c-ares' own thread, or within
`ares_getaddrinfo`. -/
def gstep (s : H) : HAct → Option H
  | .cb1 => if s.done = false then some { s with done := true, active := true } else none
  | .cb2 => if s.done = true ∧ s.wrote = false then
      some (if s.ret = none then s.write else { s with wrote := true, bad := true })
    else none
  | .resume => if s.active = true ∧ s.ret = none then some { s with ret := some (s.ec, s.ip), early := !s.wrote } else none

/-- `DnsResolve(host, wait_ms, dest_ip, proactor)` (219-252): the callback runs in the fiber itself, from `ares_getaddrinfo` or
`ares_process_fd`, and the loop of `ProcessChannel` (152-184) ends when `done` is set. -/
def lstep (s : H) : HAct → Option H
  | .cb1 => if s.done = false then some { (H.write s) with done := true } else none
  | .cb2 => none
  | .resume => if s.done = true ∧ s.ret = none then some { s with ret := some (s.ec, s.ip) } else none

def HInit (s : H) : Prop := s = ⟨s.res, none, none, false, false, false, none, false, false⟩

/-! ### The sockets (53-113) -/

/-- What to wait for. -/
structure Mask where
  rd : Bool
  wr : Bool
deriving DecidableEq, Repr

/-- `AresSocketState`, with what the proactor polls. -/
structure Sk where
  mask : Mask
  removed : Bool
  armed : Option Mask
deriving DecidableEq, Repr

abbrev Socks := Nat → Option Sk

/-- `UpdateSocketsCallback` (53-113); `none` if the `CHECK` fails. -/
def update (m : Socks) (fd : Nat) (want : Mask) : Option Socks :=
  if want.rd = false ∧ want.wr = false then
    match m fd with
    | none => none
    | some k => some (upd m fd (some { k with armed := none, removed := true }))
  else match m fd with
    | none => some (upd m fd (some ⟨want, false, some want⟩))
    | some k => if k.removed then some (upd m fd (some ⟨want, false, some want⟩)) else some m

/-- Calls of it one after another. -/
def updates (m : Socks) : List (Nat × Mask) → Option Socks
  | [] => some m
  | c :: cs => (update m c.1 c.2).bind fun m => updates m cs

/-- The loop over the sockets (177-182). For each socket, `ares_process_fd` calls `UpdateSocketsCallback` as `calls` says. A call
that puts a new socket into the table while the loop is on may move the table, and the loop's iterator is invalid then: the flag. -/
def loop (calls : Nat → List (Nat × Mask)) : List Nat → Socks → Option (Socks × Bool)
  | [], m => some (m, false)
  | fd :: fds, m =>
    match updates m (calls fd) with
    | none => none
    | some m' => (loop calls fds m').map fun r => (r.1, r.2 || (calls fd).any fun c => (m c.1).isNone && (m' c.1).isSome)

end Verif.Dns
