import Verif.Common.TS
/-!
# The io_uring socket

`/repo/util/fibers/uring_socket.{h,cc}` with the parts of `/repo/util/fiber_socket_base.h` and
`/repo/util/fibers/fiber_socket_base.cc` it uses: sockets as objects with a word `fd_`, the descriptor table of the
process, and the requests sent to the ring. The sockets of one proactor thread.

A step is a call made by a fiber up to the point where it suspends, or something the kernel does. The kernel looks up the
descriptor of a request when the ring is submitted, not when the request is prepared, and keeps the file from then on.

Simplifications:
* Bytes are natural numbers. An iovec array is the concatenation of its parts.
* A completion and the return of the call (or the callback) are one step.
* Direct descriptors are left out: `kEnableDirect` is false (26).
* Timeouts are errors that the kernel may answer at any time.
* The listening socket's queue, `on_pre_connect`, `Detach`, the error callbacks (C62) and the receive hooks (C63) are left out.
-/
namespace Verif.USock
open Verif.Common

/-- The calls that move bytes. -/
inductive Api
  | writeSome
  | asyncWrite
  | recvMsg
  | asyncRead
  /-- `Recv(MutableBytes)`, which `ReadSome` uses for one buffer (fiber_socket_base.h 58-61) -/
  | recv
deriving DecidableEq, Repr

/-- The arguments of a call: bytes to send, or the room for bytes and whether `MSG_DONTWAIT` was given. -/
inductive Arg
  | send (data : List Nat)
  | room (n : Nat) (dontwait : Bool)
deriving DecidableEq, Repr

inductive Res
  /-- `n` bytes were sent -/
  | sent (n : Nat)
  /-- these bytes were received; none means end of file -/
  | got (bs : List Nat)
  | err (e : Nat)
deriving DecidableEq, Repr

def EBADF : Nat := 9
def EAGAIN : Nat := 11
def ECONNABORTED : Nat := 103

/-- Where a request is. -/
inductive RSt
  /-- in the submission queue -/
  | prepped
  /-- in the kernel, which holds this file -/
  | kernel (file : Nat)
deriving DecidableEq, Repr

/-- A call whose request was prepared and that has not returned. -/
structure Req where
  api : Api
  arg : Arg
  /-- the socket it was made on -/
  sock : Nat
  /-- the local variable `fd` -/
  fd : Int
  /-- the file of the socket when the call was made (only for statements) -/
  file : Option Nat
  st : RSt
deriving DecidableEq, Repr

/-- A call that returned. -/
structure Ret where
  id : Nat
  api : Api
  arg : Arg
  sock : Nat
  file : Option Nat
  res : Res
deriving DecidableEq, Repr

structure S where
  /-- the descriptor table of the process -/
  tab : Nat → Option Nat
  nextFile : Nat
  /-- bytes received by the kernel and not read -/
  rx : Nat → List Nat
  eof : Nat → Bool
  /-- `fd_` of each socket -/
  word : Nat → Int
  reqs : Nat → Option Req
  nextReq : Nat
  /-- a `CHECK` or `DCHECK` failed -/
  bad : Bool
  -- what can be seen
  /-- the file each socket was opened with and has not closed -/
  mine : Nat → Option Nat
  /-- bytes the peer of a file sent -/
  arrived : Nat → List Nat
  /-- bytes handed to the network for a file -/
  wire : Nat → List Nat
  log : List Ret

def S.init : S :=
  ⟨fun _ => none, 0, fun _ => [], fun _ => false, fun _ => -1, fun _ => none, 0, false, fun _ => none, fun _ => [], fun _ => [], []⟩

/-! ### The word `fd_` (fiber_socket_base.h 233-255) -/

/-- `fd << kFdShift`, with `IS_UDS` for a unix socket (`Create`, fiber_socket_base.cc 92-95). -/
def mkWord (fd : Nat) (uds : Bool) : Int := 16 * (fd : Int) + (if uds then 2 else 0)

/-- `ShiftedFd` (240-242): an arithmetic shift. -/
def shifted (w : Int) : Int := w / 16

/-- `fd_ & IS_SHUTDOWN` -/
def isShut (w : Int) : Bool := w % 2 = 1

/-- `fd_ & IS_UDS` -/
def isUds (w : Int) : Bool := (w / 2) % 2 = 1

/-- `fd_ |= IS_SHUTDOWN` -/
def setShut (w : Int) : Int := if w % 2 = 1 then w else w + 1

/-- The descriptor table at a number that may be negative. -/
def S.look (s : S) (fd : Int) : Option Nat := if fd < 0 then none else s.tab fd.toNat

/-! ### Opening and closing -/

/-- `socket` or `accept4` gave the descriptor `fd` for socket `o`. -/
def S.opened (s : S) (o fd : Nat) (uds : Bool) : S :=
  { s with tab := upd s.tab fd (some s.nextFile), nextFile := s.nextFile + 1, word := upd s.word o (mkWord fd uds),
           mine := upd s.mine o (some s.nextFile) }

/-- `Close` (68-104) and `::close`. -/
def S.close (s : S) (o : Nat) : S :=
  if s.word o < 0 then s
  else { s with tab := upd s.tab (shifted (s.word o)).toNat none, word := upd s.word o (-1), mine := upd s.mine o none }

/-- `Shutdown` (fiber_socket_base.cc 184-202); what `::shutdown` does to the stream is the kernel's. -/
def S.shutdown (s : S) (o : Nat) : S :=
  if s.word o < 0 then { s with bad := true } else { s with word := upd s.word o (setShut (s.word o)) }

/-! ### Calls -/

/-- Whether the call looks at `IS_SHUTDOWN`: `WriteSome` (183), `AsyncWriteSome` (243), `AsyncReadSome` (280), `RecvMsg` (317), but not
`Recv` (361). -/
def Api.checks : Api → Bool
  | .recv => false
  | _ => true

/-- Whether the call goes round again on EAGAIN: `WriteSome` (203, 225), `RecvMsg` (349) and `Recv` (387). -/
def retries (a : Api) (g : Arg) : Bool :=
  match a, g with
  | .writeSome, _ => true
  | .recvMsg, .room _ dontwait => !dontwait
  | .recv, .room _ dontwait => !dontwait
  | _, _ => false

def S.done (s : S) (id : Nat) (r : Req) (res : Res) : S :=
  { s with reqs := upd s.reqs id none, log := s.log ++ [⟨id, r.api, r.arg, r.sock, r.file, res⟩] }

/-- A call up to its suspension (179-196, 242-276, 279-311, 314-334, 361-372). -/
def S.call (s : S) (a : Api) (g : Arg) (o : Nat) : S :=
  if a.checks && isShut (s.word o) then
    { s with nextReq := s.nextReq + 1, log := s.log ++ [⟨s.nextReq, a, g, o, s.mine o, .err ECONNABORTED⟩] }
  else { s with nextReq := s.nextReq + 1, reqs := upd s.reqs s.nextReq (some ⟨a, g, o, shifted (s.word o), s.mine o, .prepped⟩) }

/-- The request's error, when the fiber runs again or the callback is called (197-209, 259-268, 338-352, 376-393). -/
def S.failed (s : S) (id : Nat) (r : Req) (e : Nat) : S :=
  if e = EAGAIN ∧ retries r.api r.arg = true then { s with reqs := upd s.reqs id (some { r with st := .prepped }) }
  else s.done id r (.err e)

/-- The kernel takes the request from the submission queue. -/
def S.submit (s : S) (id : Nat) : Option S :=
  match s.reqs id with
  | some r =>
    if r.st = .prepped then
      match s.look r.fd with
      | some f => some { s with reqs := upd s.reqs id (some { r with st := .kernel f }) }
      | none => some (s.failed id r EBADF)
    else none
  | none => none

/-- What the kernel may answer. -/
inductive KAns
  | ok (n : Nat)
  | err (e : Nat)
deriving DecidableEq, Repr

/-- The kernel completes a request. -/
def S.complete (s : S) (id : Nat) (k : KAns) : Option S :=
  match s.reqs id with
  | some r =>
    match r.st with
    | .kernel f =>
      match k, r.arg with
      | .err e, _ => if e = 0 then none else some (s.failed id r e)
      | .ok n, .send data =>
        if n ≤ data.length ∧ (n = 0 → data = []) then
          some ({ s with wire := upd s.wire f (s.wire f ++ data.take n) }.done id r (.sent n))
        else none
      | .ok n, .room c _ =>
        if n ≤ c ∧ n ≤ (s.rx f).length ∧ (n = 0 → c = 0 ∨ (s.rx f = [] ∧ s.eof f = true)) then
          some ({ s with rx := upd s.rx f ((s.rx f).drop n) }.done id r (.got ((s.rx f).take n)))
        else none
    | .prepped => none
  | none => none

inductive Act
  /-- `Create` (46-66) -/
  | create (o fd : Nat) (uds : Bool)
  /-- `Accept` (105-147) on listener `l` gave the socket `o` -/
  | accept (l o fd : Nat)
  /-- `Connect` (149-177) up to its request; whether it succeeds makes no difference to the word -/
  | connect (o fd : Nat)
  | shutdown (o : Nat)
  | close (o : Nat)
  | call (a : Api) (g : Arg) (o : Nat)
  | submit (id : Nat)
  | complete (id : Nat) (k : KAns)
  /-- the peer of a file sends bytes, or ends the stream -/
  | arrive (f : Nat) (bs : List Nat)
  | peerEof (f : Nat)
deriving DecidableEq, Repr

/-- The arguments fit the call. -/
def argOk : Api → Arg → Bool
  | .writeSome, .send _ => true
  | .asyncWrite, .send _ => true
  | .recvMsg, .room _ _ => true
  | .recv, .room _ _ => true
  | .asyncRead, .room _ false => true
  | _, _ => false

/-- The kernel gives the lowest free descriptor, but any free one is allowed here. 2^27 descriptors fit into the word. -/
def step (s : S) : Act → Option S
  | .create o fd uds =>
    if s.tab fd = none ∧ fd < 2 ^ 27 then (if s.word o = -1 then some (s.opened o fd uds) else some { s with bad := true }) else none
  | .accept l o fd =>
    if s.tab fd = none ∧ fd < 2 ^ 27 ∧ s.word o = -1 ∧ 0 ≤ s.word l ∧ isShut (s.word l) = false then
      some (s.opened o fd (isUds (s.word l)))
    else none
  | .connect o fd =>
    if s.tab fd = none ∧ fd < 2 ^ 27 then (if s.word o = -1 then some (s.opened o fd false) else some { s with bad := true }) else none
  | .shutdown o => some (s.shutdown o)
  | .close o => some (s.close o)
  | .call a g o => if argOk a g then some (s.call a g o) else none
  | .submit id => s.submit id
  | .complete id k => s.complete id k
  | .arrive f bs => if s.eof f then none else some { s with rx := upd s.rx f (s.rx f ++ bs), arrived := upd s.arrived f (s.arrived f ++ bs) }
  | .peerEof f => some { s with eof := upd s.eof f true }

end Verif.USock
