import Verif.Common.TS
/-!
# Model of opening and closing sockets (util/fibers/fiber_socket_base.cc 25-33, 39-50, 63-275, util/fiber_socket_base.h 173-258)

`LinuxSocketBase` with `EpollSocket::Close`, `OnSetProactor` and `OnResetProactor` (epoll_socket.cc 159-170, 196-214). `fd_` is the
`int32_t` of the code with its flag bits, as an integer (descriptors are below 2^27). What the kernel answers is part of an operation.
Simplified: the addresses themselves, pending requests (see EpollSock), error numbers of failed system calls, the file of a unix socket.
-/
namespace Verif.SockBase
open Verif.Common

/-- System calls on descriptors, and `Detach`. -/
inductive Sys where
  | socket (uds : Bool) (fd : Nat)
  | socketErr
  | bind (fd : Int) (ok : Bool)
  | chmod (ok : Bool)
  | listen (fd : Int) (ok : Bool)
  | shutdown (fd : Int)
  | send (fd : Int)
  | recv (fd : Int)
  | close (fd : Int)
  | detach (fd : Int)
deriving DecidableEq

/-- Error codes. -/
inductive Err where
  | sys | nameTooLong | badf | pipe | aborted
deriving DecidableEq

structure S where
  fd : Int := -1
  /-- `proactor_` is set -/
  pro : Bool := true
  /-- `arm_index_ >= 0` -/
  armed : Bool := false
  log : List Sys := []
deriving DecidableEq

def S.emit (s : S) (e : Sys) : S := { s with log := s.log ++ [e] }

/-- `ShiftedFd`, `native_handle` (fiber_socket_base.h 179-183, 240-242): an arithmetic shift by `kFdShift` = 4. -/
def handle (s : S) : Int := s.fd / 16

/-- `fd_ & IS_SHUTDOWN` (245). -/
def isShutdown (s : S) : Bool := s.fd % 2 = 1

/-- `IsOpen` (218-220). -/
def isOpen (s : S) : Bool := !isShutdown s

/-- `IsUDS` (225-227): `fd_ & 2`. -/
def isUDS (s : S) : Bool := (s.fd / 2) % 2 = 1

/-- `EpollSocket::Close` (epoll_socket.cc 159-170). -/
def close (s : S) : S := if s.fd ≥ 0 then { s.emit (.close (handle s)) with fd := -1, armed := false } else s

/-- `Create` (fiber_socket_base.cc 75-98), without the debug check that the socket is closed. `a` is the answer of `socket`. -/
def create (uds : Bool) (a : Option Nat) (s : S) : Option Err × S :=
  match a with
  | none => (some .sys, s.emit .socketErr)
  | some n => (none, { s.emit (.socket uds n) with fd := n * 16 + (if uds then 2 else 0) })

/-- `Bind` (150-166). -/
def bind (a : Option Nat) (ok : Bool) (s : S) : Option Err × S :=
  match (if s.fd = -1 then create false a s else (none, s)) with
  | (some e, s) => (some e, s)
  | (none, s) =>
    let s := s.emit (.bind (handle s) ok)
    if ok then (none, s) else (some .sys, close s)

/-- `OnSetProactor` (epoll_socket.cc 196-205); `none` is a failed CHECK. -/
def onSet (s : S) : Option S := if s.fd ≥ 0 then (if s.armed then none else some { s with armed := true }) else some s

/-- `Listen(backlog)` (168-181). -/
def listen (ok : Bool) (s : S) : Option (Option Err × S) :=
  let s := s.emit (.listen (handle s) ok)
  if ok then (onSet s).map fun s => (none, s) else some (some .sys, close s)

/-- `Listen(port, backlog)` (100-120). -/
def listenPort (a : Option Nat) (okB okL : Bool) (s : S) : Option (Option Err × S) :=
  match bind a okB s with
  | (some e, s) => some (some e, s)
  | (none, s) => listen okL s

/-- The debug check of `ListenUDS` (125). -/
def udsCheck (s : S) : Bool := isUDS s

/-- `ListenUDS` (122-148) for a path of `len` characters; `sun_path` has 108. -/
def listenUDS (len : Nat) (a : Option Nat) (okB okC okL : Bool) (s : S) : Option (Option Err × S) :=
  if len + 1 ≥ 108 then some (some .nameTooLong, s)
  else match bind a okB s with
    | (some e, s) => some (some e, s)
    | (none, s) =>
      let s := s.emit (.chmod okC)
      if okC then listen okL s else some (some .sys, close s)

/-- `Shutdown` (183-200). -/
def shutdown (ok : Bool) (s : S) : Option Err × S :=
  if s.fd < 0 then (some .badf, s)
  else if isShutdown s then (none, s)
  else (if ok then none else some .sys, { s.emit (.shutdown (handle s)) with fd := s.fd + 1 })

/-- `TrySend` (234-263). -/
def trySend (ok : Bool) (s : S) : Option Err × S :=
  if isShutdown s then (some .pipe, s) else (if ok then none else some .sys, s.emit (.send (handle s)))

/-- `TryRecv` (265-275). -/
def tryRecv (ok : Bool) (s : S) : Option Err × S :=
  if isShutdown s then (some .aborted, s) else (if ok then none else some .sys, s.emit (.recv (handle s)))

/-- `SetProactor` (39-50) to none or to another one. -/
def setProactor (p : Bool) (s : S) : Option S :=
  let s := if s.pro then { s with armed := false } else s
  if p then onSet { s with pro := true } else some { s with pro := false }

/-- Operations with the answers of the kernel. -/
inductive Op where
  | create (uds : Bool) (a : Option Nat)
  | bind (a : Option Nat) (ok : Bool)
  | listen (ok : Bool)
  | listenPort (a : Option Nat) (okB okL : Bool)
  | listenUDS (len : Nat) (a : Option Nat) (okB okC okL : Bool)
  | shutdown (ok : Bool)
  | trySend (ok : Bool)
  | tryRecv (ok : Bool)
  | close
  | setProactor (p : Bool)
  /-- fiber_socket_base.h 212-214 -/
  | detach
  /-- the destructor (63-73) -/
  | destroy
deriving DecidableEq

/-- An operation: the error it returns and the new state. -/
def run (s : S) : Op → Option (Option Err × S)
  | .create uds a => some (create uds a s)
  | .bind a ok => some (bind a ok s)
  | .listen ok => listen ok s
  | .listenPort a b l => listenPort a b l s
  | .listenUDS n a b c l => listenUDS n a b c l s
  | .shutdown ok => some (shutdown ok s)
  | .trySend ok => some (trySend ok s)
  | .tryRecv ok => some (tryRecv ok s)
  | .close => some (none, close s)
  | .setProactor p => (setProactor p s).map fun s => (none, s)
  | .detach => some (none, { s.emit (.detach (handle s)) with fd := -1 })
  | .destroy => some (none, if handle s > -1 then { s.emit (.close (handle s)) with fd := -1 } else s)

end Verif.SockBase
