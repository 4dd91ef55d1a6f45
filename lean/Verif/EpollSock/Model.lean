import Verif.Common.Run

/-!
# The epoll socket

`/repo/util/fibers/epoll_socket.{h,cc}` and the parts of `/repo/util/fiber_socket_base.{h,cc}` it uses
(`Shutdown`, `TrySend`, `TryRecv`, the flag bits of `fd_`), on Linux.

A socket belongs to one proactor thread, so everything that happens to it is a sequence of steps: a
call made by a fiber runs until it returns or suspends, and an event is dispatched between such runs.
`step` performs one of them, and says what could be seen.

Simplifications:
* Bytes are natural numbers. An iovec array is the concatenation of its parts.
* The kernel socket is a queue of received bytes, room for bytes to send, and flags. `recvmsg` returns
  queued bytes first, then an error, then end of file, then EAGAIN, as tcp and unix sockets do. The
  kernel queues an event for the registration (`edge`) when bytes, an end of file or an error arrive,
  when room appears where there was none, when a connection is established and when the socket is
  shut down; spurious events are allowed too. `epoll_wait` computes the mask at the time it is
  called.
* One fiber at a time reads and one writes (a second writer trips the DCHECK of `WriteSome`).
* Callbacks only take note of the call; they do not call back into the socket.
* `arm_index_` is never reused by another socket while an event of this one is in flight (see C30).
* `AsyncReadSome` is `ReadSome` followed by the callback (361-364), so no async read is ever pending
  and `async_read_pending_` is left out. `Accept` (216-248) is `RecvMsg` with connections for bytes;
  it is left out. So is migration between proactors (196-214).
* `none` is a failed CHECK or undefined behaviour.
-/
namespace Verif.EpollSock

/-- Why a suspended fiber runs again: `PendingReq::Suspend` (109-121). -/
inductive Wake | ok | aborted | timedOut
deriving DecidableEq, Repr

/-- A fiber in a blocking call: not in one, suspended, or put back on the ready list. -/
inductive FSt | idle | susp | ready (k : Wake)
deriving DecidableEq, Repr

/-- The union of `read_req_` and `on_recv_` (epoll_socket.h 76-80). -/
inductive RPtr | null | pend | hook (c : Nat)
deriving DecidableEq, Repr

/-- The union of `write_req_` and `async_write_req_` (epoll_socket.h 66-69). -/
inductive WPtr | null | pend | areq (data : List Nat) (c : Nat)
deriving DecidableEq, Repr

/-- What the writing fiber is doing. -/
inductive WKind | write (data : List Nat) | connect
deriving DecidableEq, Repr

/-- The bits of an event mask. -/
structure Mask where
  inn : Bool
  out : Bool
  err : Bool
  hup : Bool
  rdhup : Bool
deriving DecidableEq, Repr

/-- Who handed bytes to the kernel. -/
inductive Src | write | async (c : Nat) | trySend
deriving DecidableEq, Repr

/-- Why a call failed. -/
inductive EKind | aborted | timedOut | sys | pipe | again
deriving DecidableEq, Repr

/-- What can be seen. -/
inductive Obs
  /-- Bytes arrived from the peer. -/
  | arrived (bs : List Nat)
  /-- `Recv` returned these bytes; none means end of file. -/
  | recvd (bs : List Nat)
  | recvErr (e : EKind)
  | tryRecvd (bs : List Nat)
  | tryRecvErr (e : EKind)
  /-- The kernel accepted bytes to send. -/
  | wire (src : Src) (bs : List Nat)
  /-- `WriteSome` returned. -/
  | wrote (n : Nat)
  | writeErr (e : EKind)
  | trySent (n : Nat)
  | trySendErr (e : EKind)
  /-- `AsyncWriteSome` was called with a callback, and the callback was called. -/
  | issued (c : Nat) (data : List Nat)
  | done (c : Nat) (res : Except EKind Nat)
  /-- The receive hook was called; `false` announces that the connection was closed. -/
  | hook (c : Nat) (valid : Bool)
  | errCb (c : Nat)
  /-- `Connect` returned. -/
  | connected (ok : Bool)
  /-- `close` was called again on a descriptor that had been closed. -/
  | doubleClose
deriving Repr

/-- The kernel socket, its epoll registration, the socket object and the two fibers. -/
structure S where
  /-- a unix domain socket -/
  uds : Bool
  -- the kernel
  rx : List Nat
  eof : Bool
  err : Bool
  room : Nat
  conn : Bool
  shutRd : Bool
  shutWr : Bool
  edge : Bool
  armed : Bool
  -- the object
  /-- `fd_ >= 0` -/
  opened : Bool
  /-- the `IS_SHUTDOWN` bit of an open `fd_` -/
  shut : Bool
  rptr : RPtr
  hookReg : Bool
  wptr : WPtr
  apend : Bool
  readNotified : Bool
  errorCb : Option Nat
  -- the fibers
  r : FSt
  rcap : Nat
  w : FSt
  wk : WKind
  /-- callbacks dispatched to run later in this thread (`DispatchLocalBrief`) -/
  brief : List (Nat × Except EKind Nat)

/-- `EpollSocket(-1)` with a proactor: not connected (148-150). -/
def S.fresh (uds : Bool) : S :=
  { uds, rx := [], eof := false, err := false, room := 0, conn := false, shutRd := false,
    shutWr := false, edge := false, armed := false, opened := false, shut := false, rptr := .null,
    hookReg := false, wptr := .null, apend := false, readNotified := false, errorCb := none,
    r := .idle, rcap := 0, w := .idle, wk := .connect, brief := [] }

/-- A socket produced by `Accept`, armed by `OnSetProactor` (196-205), with room to send `room` bytes. -/
def S.accepted (uds : Bool) (room : Nat) : S :=
  { S.fresh uds with room, conn := true, armed := true, opened := true, edge := true }

/-- `fd_ & IS_SHUTDOWN`: also set when `fd_` is -1. -/
def S.isShut (s : S) : Bool := s.shut || !s.opened

/-- What `epoll_wait` reports about the socket. -/
def S.mask (s : S) : Mask :=
  { inn := !s.rx.isEmpty || s.eof || s.shutRd || s.err
    out := (s.conn && (decide (0 < s.room) || s.shutWr)) || s.err
    err := s.err
    hup := ((s.eof || s.shutRd) && s.shutWr) || (s.uds && s.eof) || s.err
    rdhup := s.eof || s.shutRd || s.err }

/-- `mask & kErrMask` (38). -/
def Mask.bad (m : Mask) : Bool := m.err || m.hup || m.rdhup

/-- The error a suspended fiber is activated with (476-481). -/
def Mask.wake (m : Mask) : Wake := if m.err then .aborted else if m.hup then .aborted else .ok

/-- Results of the non-blocking system calls. -/
inductive Sys (α : Type) | ok (a : α) | again | fail
deriving Repr

/-- `recvmsg` with room for `n` bytes. -/
def S.krecv (s : S) (n : Nat) : Sys (List Nat × S) :=
  if s.rx ≠ [] then .ok (s.rx.take n, { s with rx := s.rx.drop n })
  else if s.err then .fail
  else if s.eof || s.shutRd then .ok ([], s)
  else .again

/-- `sendmsg`. Returns how many bytes were accepted. -/
def S.ksend (s : S) (data : List Nat) : Sys (Nat × S) :=
  if s.err || s.shutWr || !s.conn then .fail
  else if s.room = 0 ∧ data ≠ [] then .again
  else .ok (min s.room data.length, { s with room := s.room - min s.room data.length })

/-- One round of the loop of `RecvMsg` (376-393), for `n` bytes. -/
def S.recvTurn (s : S) (n : Nat) : List Obs × S :=
  if s.isShut then ([.recvd []], { s with r := .idle })
  else match s.krecv n with
  | .ok (bs, s1) => ([.recvd bs], { s1 with r := .idle })
  | .fail => ([.recvErr .sys], { s with r := .idle })
  | .again => ([], { s with r := .susp, rcap := n, rptr := .pend })

/-- One round of the loop of `WriteSome` (319-333): `TrySend` (fiber_socket_base.cc 240-255), and a
suspension if it would block. -/
def S.writeTurn (s : S) (data : List Nat) : List Obs × S :=
  if s.isShut then ([.writeErr .pipe], { s with w := .idle })
  else match s.ksend data with
  | .ok (n, s1) => ([.wire .write (data.take n), .wrote n], { s1 with w := .idle })
  | .fail => ([.writeErr .sys], { s with w := .idle })
  | .again => ([], { s with w := .susp, wk := .write data, wptr := .pend })

/-- The rest of `Connect` after its fiber was woken (286-309; `close` is of the local variable `fd`). -/
def S.connectDone (s : S) (k : Wake) : List Obs × S :=
  match k with
  | .ok => ([.connected true], { s with w := .idle })
  | _ =>
    if s.opened then
      ([.connected false], { s with w := .idle, armed := false, opened := false, edge := false })
    else ([.doubleClose, .connected false], { s with w := .idle })

/-- The iteration of `HandleAsyncRequest` (464-523) for reading. -/
def S.handleIn (s : S) (m : Mask) : Option (List Obs × S) :=
  if !(m.inn || m.bad) then some ([], s)
  else if s.hookReg then
    match s.rptr with
    | .hook c => some ([.hook c !(!m.err && m.hup)], { s with readNotified := false })
    | _ => none
  else match s.rptr with
  | .hook _ => none
  | .pend =>
    if s.r = .susp then some ([], { s with r := .ready m.wake, readNotified := false })
    else some ([], { s with readNotified := s.readNotified || m.inn })
  | .null => some ([], { s with readNotified := s.readNotified || m.inn })

/-- The iteration of `HandleAsyncRequest` (464-523) for writing; `AsyncReq::Run` is 129-146. -/
def S.handleOut (s : S) (m : Mask) : Option (List Obs × S) :=
  if !(m.out || m.bad) then some ([], s)
  else if s.apend then
    match s.wptr with
    | .areq data c =>
      match s.ksend data with
      | .ok (n, s1) =>
        some ([.wire (.async c) (data.take n), .done c (.ok n)], { s1 with wptr := .null, apend := false })
      | .fail => some ([.done c (.error .sys)], { s with wptr := .null, apend := false })
      | .again => some ([], s)
    | _ => none
  else match s.wptr with
  | .areq _ _ => none
  | .pend =>
    if s.w = .susp then some ([], { s with w := .ready m.wake, readNotified := false })
    else some ([], { s with readNotified := s.readNotified || m.inn })
  | .null => some ([], { s with readNotified := s.readNotified || m.inn })

/-- `Wakey` (525-536). -/
def S.wakey (s : S) (m : Mask) : Option (List Obs × S) :=
  match s.handleIn m with
  | none => none
  | some (o1, s1) =>
    match s1.handleOut m with
    | none => none
    | some (o2, s2) =>
      match s2.errorCb with
      | some c =>
        if m.bad then some (o1 ++ o2 ++ [.errCb c], { s2 with errorCb := none })
        else some (o1 ++ o2, s2)
      | none => some (o1 ++ o2, s2)

/-- `Shutdown` (419-429, fiber_socket_base.cc 173-192). -/
def S.shutdown (s : S) (rd wr : Bool) : Option (List Obs × S) :=
  let s1 : S :=
    if s.isShut then s
    else { s with shut := true, shutRd := s.shutRd || rd, shutWr := s.shutWr || wr, edge := true }
  s1.wakey ⟨true, true, false, false, false⟩

/-- What `Close` does with a pending async write (173-179). -/
def S.closeAsync (s : S) : Option (List Obs × S) :=
  if s.apend then
    match s.wptr with
    | .areq _ c => some ([.done c (.error .aborted)], { s with wptr := .null, apend := false })
    | _ => none
  else some ([], s)

/-- What `Close` does with a receive hook (187-191). -/
def S.closeHook (s : S) : S :=
  if s.hookReg then { s with rptr := .null, hookReg := false } else s

/-- `Close` (159-194). -/
def S.close (s : S) : Option (List Obs × S) :=
  if s.opened then
    match ({ s with opened := false, armed := false, edge := false } : S).closeAsync with
    | none => none
    | some (o, s1) => some (o, s1.closeHook)
  else some ([], s)

/-- `AsyncWriteSome` (346-359). -/
def S.asyncWrite (s : S) (c : Nat) (data : List Nat) : Option (List Obs × S) :=
  if s.isShut then some ([.issued c data], { s with brief := s.brief ++ [(c, .error .pipe)] })
  else match s.ksend data with
  | .ok (n, s1) =>
    some ([.issued c data, .wire (.async c) (data.take n)], { s1 with brief := s1.brief ++ [(c, .ok n)] })
  | .fail => some ([.issued c data], { s with brief := s.brief ++ [(c, .error .sys)] })
  | .again =>
    match s.wptr with
    | .null => some ([.issued c data], { s with wptr := .areq data c, apend := true })
    | _ => none

/-- `TrySend` (fiber_socket_base.cc 240-255). -/
def S.trySend (s : S) (data : List Nat) : List Obs × S :=
  if s.isShut then ([.trySendErr .pipe], s)
  else match s.ksend data with
  | .ok (n, s1) => ([.wire .trySend (data.take n), .trySent n], s1)
  | .fail => ([.trySendErr .sys], s)
  | .again => ([.trySendErr .again], s)

/-- `TryRecv` (fiber_socket_base.cc 257-267). -/
def S.tryRecv (s : S) (n : Nat) : List Obs × S :=
  if s.isShut then ([.tryRecvErr .aborted], s)
  else match s.krecv n with
  | .ok (bs, s1) => ([.tryRecvd bs], s1)
  | .fail => ([.tryRecvErr .sys], s)
  | .again => ([.tryRecvErr .again], s)

/-- `RegisterOnRecv` (440-454). -/
def S.regHook (s : S) (c : Nat) : Option (List Obs × S) :=
  if s.hookReg || !s.opened then none
  else if s.readNotified then
    some ([.hook c true], { s with hookReg := true, rptr := .hook c, readNotified := false })
  else some ([], { s with hookReg := true, rptr := .hook c })

/-- `ResetOnRecvHook` (456-462). -/
def S.resetHook (s : S) : S :=
  if s.hookReg then { s with hookReg := false, rptr := .null } else s

/-- How the `connect` system call ends. -/
inductive ConnRes | ok (room : Nat) | fail | inProgress
deriving DecidableEq, Repr

/-- `Connect` (250-310) up to its suspension. -/
def S.connect (s : S) (res : ConnRes) : Option (List Obs × S) :=
  if s.opened || s.rptr ≠ .null || s.wptr ≠ .null then none
  else
    let s1 : S :=
      { s with rx := [], eof := false, err := false, room := 0, conn := false, shutRd := false,
               shutWr := false, shut := false, opened := true, armed := true, edge := false }
    match res with
    | .ok room => some ([.connected true], { s1 with conn := true, room, edge := true })
    | .fail => some ([.connected false], { s1 with opened := false, armed := false })
    | .inProgress => some ([], { s1 with w := .susp, wk := .connect, wptr := .pend })

/-- What can happen. -/
inductive Act
  -- the network and the kernel
  | arrive (bs : List Nat) | peerClose | reset | drain (k : Nat) | establish (room : Nat) | spurious
  -- the proactor
  | dispatch | timeoutR | timeoutW | runR | runW | runBrief
  -- calls
  | recv (n : Nat) | write (data : List Nat) | asyncWrite (c : Nat) (data : List Nat)
  | trySend (data : List Nat) | tryRecv (n : Nat) | shutdown (rd wr : Bool) | close
  | regHook (c : Nat) | resetHook | regErr (c : Nat) | cancelErr | connect (res : ConnRes)
deriving DecidableEq, Repr

/-- One step. A step that cannot happen in `s` changes nothing. -/
def step (s : S) : Act → Option (List Obs × S)
  | .arrive bs =>
    if s.opened && s.conn && !s.eof && !s.err && bs ≠ [] then
      some ([.arrived bs], { s with rx := s.rx ++ bs, edge := true })
    else some ([], s)
  | .peerClose =>
    if s.opened && s.conn then some ([], { s with eof := true, edge := true }) else some ([], s)
  | .reset => if s.opened then some ([], { s with err := true, edge := true }) else some ([], s)
  | .drain k =>
    if s.opened && s.conn then
      some ([], { s with room := s.room + k, edge := s.edge || (s.room = 0 && k ≠ 0) })
    else some ([], s)
  | .establish room =>
    if s.opened && !s.conn && !s.err then
      some ([], { s with conn := true, room := room + 1, edge := true })
    else some ([], s)
  | .spurious => if s.armed then some ([], { s with edge := true }) else some ([], s)
  | .dispatch =>
    if s.edge && s.armed then ({ s with edge := false } : S).wakey s.mask else some ([], s)
  | .timeoutR => if s.r = .susp then some ([], { s with r := .ready .timedOut }) else some ([], s)
  | .timeoutW => if s.w = .susp then some ([], { s with w := .ready .timedOut }) else some ([], s)
  | .runR =>
    match s.r with
    | .ready k =>
      -- `~PendingReq` (92-94), then the loop condition
      let s1 := { s with rptr := .null }
      match k with
      | .ok => some (s1.recvTurn s1.rcap)
      | .aborted => some ([.recvErr .aborted], { s1 with r := .idle })
      | .timedOut => some ([.recvErr .timedOut], { s1 with r := .idle })
    | _ => some ([], s)
  | .runW =>
    match s.w with
    | .ready k =>
      let s1 := { s with wptr := .null }
      match s1.wk with
      | .connect => some (s1.connectDone k)
      | .write data =>
        match k with
        | .ok => some (s1.writeTurn data)
        | .aborted => some ([.writeErr .aborted], { s1 with w := .idle })
        | .timedOut => some ([.writeErr .timedOut], { s1 with w := .idle })
    | _ => some ([], s)
  | .runBrief =>
    match s.brief with
    | (c, res) :: l => some ([.done c res], { s with brief := l })
    | [] => some ([], s)
  | .recv n =>
    if !s.opened || s.rptr ≠ .null then none
    else if s.r ≠ .idle then none
    else some (s.recvTurn n)
  | .write data =>
    if !s.opened || s.wptr ≠ .null then none
    else if s.w ≠ .idle then none
    else some (s.writeTurn data)
  | .asyncWrite c data => s.asyncWrite c data
  | .trySend data => some (s.trySend data)
  | .tryRecv n => some (s.tryRecv n)
  | .shutdown rd wr => s.shutdown rd wr
  | .close => s.close
  | .regHook c => s.regHook c
  | .resetHook => some ([], s.resetHook)
  | .regErr c => if s.errorCb = none then some ([], { s with errorCb := some c }) else none
  | .cancelErr => some ([], { s with errorCb := none })
  | .connect res => s.connect res

/-- A history. -/
abbrev run := Common.run step

end Verif.EpollSock
