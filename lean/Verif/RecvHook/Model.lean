import Verif.Common.TS
/-!
# Model of the multishot receive hook of the uring socket

`UringSocket::RegisterOnRecv` and `ResetOnRecvHook` (util/fibers/uring_socket.cc:455-552) with
`enable_multi_shot_` set (uring_socket.h:65-67). The other mode, a poll, is the model `UPoll`; which
buffers of the ring hold the data is the model `BufRing`.

One socket, its user and the kernel. A kernel request is named after the callback it was made for. The
kernel may complete a request that it holds at any time: with data, with the end of the stream or with
an error. The callback of the user may call the socket, so these calls are also allowed between two
segments of one completion; nothing else runs there, because the loop does not wait.
-/
namespace Verif.RecvHook
open Verif.Common

/-- util/fiber_socket_base.h:119-126, `RecvNotification`: `false` (the other end closed), an error code,
or data. -/
inductive Note where
  | closed
  | error (value : Int)
  | data (bytes : List Nat)
deriving DecidableEq, Repr

/-- The completion that is being processed (uring_socket.cc:464-494): the callback, the segments that
were not passed on yet and IORING_CQE_F_MORE. -/
structure Cur where
  cb : Nat
  segs : List (List Nat)
  more : Bool
deriving DecidableEq, Repr

/-- How the program dies: a failed `CHECK`, `LOG(FATAL) << "TBD"`, use of the socket after its
destruction. -/
inductive Crash where
  | check
  | noBufs
  | freed
deriving DecidableEq, Repr

/-- The socket: `opened`, `multishot` is `register_recv_multishot_` (uring_socket.h:131), `alive` until
it is destroyed. The kernel: `armed` holds the requests. Ghosts: `log` are the calls of callbacks, in
order, `regs` the callbacks that were registered by the user, `rcvd` the data the kernel received for
each request, in order. -/
structure S where
  alive : Bool
  opened : Bool
  multishot : Bool
  armed : List Nat
  cur : Option Cur
  crash : Option Crash
  log : List (Nat × Note)
  regs : List Nat
  rcvd : List (Nat × List Nat)
deriving DecidableEq, Repr

/-- An open socket without a hook. -/
def S.new : S :=
  { alive := true, opened := true, multishot := false, armed := [], cur := none, crash := none, log := [],
    regs := [], rcvd := [] }

/-- ENOBUFS. -/
def enobufs : Nat := 105

inductive Act where
  | register (cb : Nat)
  | reset
  | close
  | destroy
  | data (cb : Nat) (segs : List (List Nat)) (more : Bool)
  | seg
  | finish
  | eof (cb : Nat)
  | err (cb : Nat) (errno : Nat)

/-- uring_socket.cc:455-529, `RegisterOnRecv`. Nothing sets `register_recv_multishot_`. On a closed
socket (only a `DCHECK`) the request is made as well; the kernel will refuse it. -/
def S.reg (s : S) (cb : Nat) : S :=
  if s.multishot then { s with crash := some .check } else { s with armed := s.armed ++ [cb] }

/-- uring_socket.cc:541-552, `ResetOnRecvHook`; `recv_poll_id_` is 0 in this mode. A cancelled request
stays with the kernel until it is completed with an error. -/
def S.unhook (s : S) : S := if s.multishot then { s with multishot := false } else s

/-- uring_socket.cc:495-516, a completion without a buffer; `errno` is the negated result. -/
def S.final (s : S) (cb errno : Nat) : S :=
  let s := { s with armed := s.armed.erase cb }
  if errno = enobufs then { s with crash := some .noBufs }
  else if s.alive = false then { s with crash := some .freed }
  else
    let s := { s with multishot := false }
    if errno = 0 then { s with log := s.log ++ [(cb, .closed)] }
    else { s with log := s.log ++ [(cb, .error (-(errno : Int)))] }

/-- One step. After a crash there is none. -/
def step (s : S) (a : Act) : Option S :=
  if s.crash.isSome then none
  else match a with
  | .register cb =>
    if s.alive && s.opened then some ({ s with regs := s.regs ++ [cb] }.reg cb) else none
  | .reset => if s.alive then some s.unhook else none
  -- uring_socket.cc:68-103, `Close`
  | .close => if s.alive then some { s.unhook with opened := false } else none
  | .destroy => if s.alive && !s.opened then some { s with alive := false } else none
  -- the proactor takes a completion with a buffer
  | .data cb segs more =>
    if s.cur.isNone && s.armed.contains cb && !segs.isEmpty then
      some { s with cur := some { cb := cb, segs := segs, more := more },
                    armed := if more then s.armed else s.armed.erase cb,
                    rcvd := s.rcvd ++ [(cb, segs.flatten)] }
    else none
  -- uring_socket.cc:474-484, one round of the loop
  | .seg =>
    match s.cur with
    | some ⟨cb, b :: rest, more⟩ =>
      some { s with cur := some ⟨cb, rest, more⟩, log := s.log ++ [(cb, .data b)] }
    | _ => none
  -- uring_socket.cc:486-493, after the loop
  | .finish =>
    match s.cur with
    | some ⟨cb, [], more⟩ =>
      let s := { s with cur := none }
      if more then some s
      else if s.alive = false then some { s with crash := some .freed }
      else some (s.reg cb)
    | _ => none
  | .eof cb => if s.cur.isNone && s.armed.contains cb then some (s.final cb 0) else none
  | .err cb errno =>
    if s.cur.isNone && s.armed.contains cb && decide (0 < errno) then some (s.final cb errno) else none

def init (s : S) : Prop := s = S.new

end Verif.RecvHook
