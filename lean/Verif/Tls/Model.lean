import Verif.Tls.Engine

/-!
# The TLS socket

`/repo/util/tls/tls_socket.{h,cc}` and `/repo/util/tls/tls_socket_async.cc`: the blocking calls, the
non-blocking calls and the asynchronous requests of a TLS socket over another socket (`next_sock_`), on
one thread.

At most three fibers use the socket at a time: one inside `WriteSome`, one inside `Recv`, one inside
`Shutdown`. Each runs until it waits for the socket below or for the condition variable of the flags, so
a step of the model is what one of them, or a completion callback, does between two waits; a fiber that
runs is marked `idle`. The socket
below is the environment: it completes an operation in any way, at any time, in any order. Its answers
to `TrySend` and `TryRecv` are taken from a script (`ups`), over which the theorems quantify.

The log is a ghost: it records what the calls took from and gave to their callers.

A waiting fiber is resumed by an action that re-evaluates its condition; `clear_io_in_progress_and_notify`
notifies on every change of the flags (tls_socket.h), so this loses nothing. Left out: the handshake
(`Accept`, `Connect`, `InitSSL`), `Close`, `HandleRecvNotification` of data, error categories beyond the
list `Err`, counters.
-/
namespace Verif.Tls

/-- The fibers that use the socket. -/
inductive FId | w | r | h
deriving DecidableEq, Repr

/-- `TlsAsyncReq::Role` (tls_async_req.h 23). -/
inductive Role | reader | writer
deriving DecidableEq, Repr

/-- Who started the operation of the socket below. -/
inductive Holder | fib (f : FId) | req (ρ : Role)
deriving DecidableEq, Repr

/-- Error codes. -/
inductive Err | again | busy | reset | aborted | pipe | net | inProgress
deriving DecidableEq, Repr

/-- Which call. -/
inductive Src | sync | try_ | async
deriving DecidableEq, Repr

/-- What the log records. -/
inductive Obs
  /-- a write is called with these bytes -/
  | call (src : Src) (d : List Nat)
  /-- the engine accepted these bytes of it -/
  | enc (src : Src) (bs : List Nat)
  /-- it reported a count, or failed -/
  | ret (src : Src) (n : Nat)
  | fail (src : Src) (e : Err)
  /-- a read is called -/
  | rcall (src : Src)
  /-- the engine put these bytes into its buffer -/
  | dec (src : Src) (bs : List Nat)
  /-- it reported that it has read `n` bytes, or failed -/
  | rret (src : Src) (n : Nat)
  | rfail (src : Src) (e : Err)
  /-- the receive callback was called by the completion of a drain -/
  | wake (ok : Bool)
  /-- a write of the socket below failed -/
  | upFail
  /-- `TryRecv` found the socket below empty -/
  | empty
  /-- `Shutdown` returned -/
  | shutDone
deriving DecidableEq, Repr

/-- What a fiber does when the operation it waits for is over. -/
inductive K
  /-- `WriteSome`, inside `HandleEngineOp` (tls_socket.cc 313) -/
  | wOp (iov : List (List Nat)) (written : Nat)
  /-- `WriteSome`, flushing (321) -/
  | wFin (written : Nat)
  /-- `RecvMsg`, inside `HandleEngineOp` (281) -/
  | rOp (caps : List Nat) (got : Nat)
  /-- `Shutdown`, sending close_notify (108) -/
  | hSend
deriving DecidableEq, Repr

/-- Where a fiber is. -/
inductive Fib
  | idle
  /-- in `next_sock_->WriteSome` of `HandleUpstreamWrite` (469), then maybe reads -/
  | netW (buf : List Nat) (k : K) (thenRead : Bool)
  /-- in `next_sock_->Recv` of `HandleUpstreamRead` (437), into the input buffer at `pos` -/
  | netR (pos : Nat) (k : K)
  /-- in `wait_for_write_completion` (401) -/
  | waitW (k : K)
  /-- in `wait_for_read_completion` (428) -/
  | waitR (k : K)
  /-- in `wait_for_io_completion` (121) -/
  | waitIo
deriving DecidableEq, Repr

/-- What an asynchronous request is for. -/
inductive Kind
  | user (iov : List (List Nat))
  /-- output only: `StartAsyncWrite`, by `TryRecv` if `drain` -/
  | flush (drain : Bool)
  | read (cap : Nat)
deriving DecidableEq, Repr

/-- The operation of the socket below that a request has in flight. -/
inductive Up | none | wr (buf : List Nat) | rd (pos : Nat)
deriving DecidableEq, Repr

/-- `TlsAsyncReq` (tls_async_req.h 45-66). -/
structure Req where
  kind : Kind
  written : Nat
  shouldRead : Bool
  up : Up
deriving DecidableEq, Repr

/-- Answers of the socket below to `TrySend` and `TryRecv`. -/
inductive UpAns | sent (n : Nat) | data (bs : List Nat) | eof | again | err
deriving DecidableEq, Repr

/-- `Shutdown` so far: the flags SHUTDOWN_IN_PROGRESS and SHUTDOWN_DONE. -/
inductive Shut | no | inProgress | done
deriving DecidableEq, Repr

/-- The socket. -/
structure S where
  e : Eng
  ups : List UpAns
  /-- the flag WRITE_IN_PROGRESS, with who set it (a ghost) -/
  wown : Option Holder
  /-- the flag READ_IN_PROGRESS, with who set it -/
  rown : Option Holder
  fib : FId → Fib
  req : Role → Option Req
  /-- `blocked_async_req_` -/
  blocked : Option Role
  /-- the flag DRAIN_ENGINE_IN_FLIGHT -/
  drain : Bool
  /-- `on_recv_cb_` is set -/
  hook : Bool
  shut : Shut
  /-- `next_sock_->Shutdown` was called -/
  nextShut : Bool
  /-- ghost: bytes the socket below has taken, and delivered -/
  wire : List Nat
  arrived : List Nat
  /-- ghost: how much the engine had produced when a blocking write last gave it data -/
  wmark : Nat
  log : List Obs

/-- A new socket. -/
def S.init (script : List ERes) (ups : List UpAns) (hook : Bool) : S :=
  { e := Eng.init script, ups, wown := none, rown := none, fib := fun _ => .idle, req := fun _ => none,
    blocked := none, drain := false, hook, shut := .no, nextShut := false, wire := [], arrived := [],
    wmark := 0, log := [] }

/-- Moves a fiber. -/
def S.setFib (s : S) (f : FId) (p : Fib) : S := { s with fib := fun g => if g = f then p else s.fib g }

/-- Changes a request. -/
def S.setReq (s : S) (ρ : Role) (q : Option Req) : S :=
  { s with req := fun g => if g = ρ then q else s.req g }

/-- Appends to the log. -/
def S.emit (s : S) (l : List Obs) : S := { s with log := s.log ++ l }

/-- Starts `HandleUpstreamWrite` (tls_socket.cc 455-469). -/
def S.netW (s : S) (f : FId) (k : K) (thenRead : Bool) : S :=
  { s with wown := some (.fib f) }.setFib f (.netW s.e.out k thenRead)

/-- `HandleUpstreamRead` once the output is flushed (421-437). -/
def S.netR (s : S) (f : FId) (k : K) : S :=
  match s.rown with
  | some _ => s.setFib f (.waitR k)
  | none => { s with rown := some (.fib f) }.setFib f (.netR s.e.fed.length k)

/-- `HandleUpstreamRead` (408-437). -/
def S.upRead (s : S) (f : FId) (k : K) : S :=
  if s.e.out ≠ [] ∧ s.wown = none then s.netW f k true else s.netR f k

/-- `MaybeSendEngineOutput` (385-406) with output pending. -/
def S.upWrite (s : S) (f : FId) (k : K) : S :=
  match s.wown with
  | some _ => s.setFib f (.waitW k)
  | none => s.netW f k false

/-- `WriteSome` returns (311, 317, 325, 327). -/
def S.wRet (s : S) (n : Nat) : S := (s.setFib .w .idle).emit [.ret .sync n]
def S.wFail (s : S) (e : Err) : S := (s.setFib .w .idle).emit [.fail .sync e]

/-- `WriteSome` after it has pushed something (320-327). -/
def S.wFinish (s : S) (n : Nat) : S :=
  if s.e.out = [] then s.wRet n else s.upWrite .w (.wFin n)

/-- One round of `WriteSome` (306-329). `none`: a failed CHECK, or a round that changes nothing, so that
the loop never ends (no vectors at all). -/
def S.wLoop (s : S) (iov : List (List Nat)) : Option S :=
  match push s.e iov with
  | none => none
  | some p =>
    let s1 := { s with e := p.eng, wmark := p.eng.produced.length }.emit
      [.enc .sync (iov.flatten.take p.written)]
    match p.op with
    | none => if p.written = 0 then none else some (s1.wFinish p.written)
    | some .graceful => some (s1.wFail .pipe)
    | some .abrupt => some (s1.wFail .reset)
    | some .needRead => some (s1.upRead .w (.wOp iov p.written))
    | some .needWrite => some (s1.upWrite .w (.wOp iov p.written))

/-- Why the reading loop stopped. -/
inductive RStop | full | op (o : Op)
deriving DecidableEq, Repr

/-- The calls of `Engine::Read` in `RecvMsg` (242-268) and `TryRecv` (783-798): buffers to fill, bytes so
far. Every round uses up an answer of the engine, or is the last one. -/
def readLoop : Nat → Eng → List Nat → List Nat → RStop × List Nat × List Nat × Eng
  | _, e, [], got => (.full, [], got, e)
  | 0, e, caps, got => (.op .abrupt, caps, got, e)
  | fuel + 1, e, n :: caps, got =>
    match e.read n with
    | (.error o, e1) => (.op o, n :: caps, got, e1)
    | (.ok bs, e1) =>
      readLoop fuel e1 (if bs.length < n then (n - bs.length) :: caps else caps) (got ++ bs)

/-- `RecvMsg` returns. -/
def S.rRet (s : S) (n : Nat) : S := (s.setFib .r .idle).emit [.rret .sync n]
/-- `RecvMsg` fails (281-289): what was read before is returned first. -/
def S.rFail (s : S) (got : Nat) (e : Err) : S :=
  if got > 0 then s.rRet got else (s.setFib .r .idle).emit [.rfail .sync e]

/-- `RecvMsg` (219-292), from the top of the loop. -/
def S.rLoop (s : S) (caps : List Nat) (got : Nat) : S :=
  match readLoop (s.e.script.length + 1) s.e caps [] with
  | (stop, caps1, bs, e1) =>
    let s1 := { s with e := e1 }.emit [.dec .sync bs]
    let n := got + bs.length
    match stop with
    | .full => s1.rRet n
    | .op .graceful => s1.rRet n
    | .op .abrupt => s1.rFail n .reset
    | .op .needRead => if n > 0 then s1.rRet n else s1.upRead .r (.rOp caps1 n)
    | .op .needWrite => s1.upWrite .r (.rOp caps1 n)

/-- `Shutdown` once close_notify is sent or given up (111-121). -/
def S.hNext (s : S) : S := { s with nextShut := true }.setFib .h .waitIo

/-- What a fiber does when the engine operation it waited for succeeded. -/
def S.cont (s : S) (k : K) : Option S :=
  match k with
  | .wOp iov n => if n > 0 then some (s.wFinish n) else s.wLoop iov
  | .wFin n => some (s.wRet n)
  | .rOp caps got => some (s.rLoop caps got)
  | .hSend => some s.hNext

/-- What it does when it failed. -/
def S.contFail (s : S) (k : K) (e : Err) : S :=
  match k with
  | .wOp _ _ | .wFin _ => s.wFail e
  | .rOp _ got => s.rFail got e
  | .hSend => s.hNext

/-- `next_sock_->WriteSome` of a fiber returns (469-490): `none` is an error, otherwise it took one byte
more than `k`, or all. -/
def S.netWDone (s : S) (f : FId) (k : Option Nat) : Option S :=
  match s.fib f with
  | .netW buf c thenRead =>
    match k with
    | none => some ((({ s with wown := none }.emit [.upFail]).setFib f .idle).contFail c .net)
    | some k =>
      let s1 := { s with wire := s.wire ++ buf.take (k + 1), e := s.e.consume (min (k + 1) buf.length) }
      if s1.e.out ≠ [] then some (s1.setFib f (.netW s1.e.out c thenRead))
      else
        let s2 := { s1 with wown := none }.setFib f .idle
        if thenRead then some (s2.netR f c) else s2.cont c
  | _ => some s

/-- What the socket below read. -/
inductive Rd | data (bs : List Nat) | eof | err
deriving DecidableEq, Repr

/-- `next_sock_->Recv` of a fiber returns (437-452). `none`: the bytes were not put where the engine
looks for them. -/
def S.netRDone (s : S) (f : FId) (r : Rd) : Option S :=
  match s.fib f with
  | .netR pos c =>
    match r with
    | .err => some (({ s with rown := none }.setFib f .idle).contFail c .net)
    | .eof => some (({ s with rown := none }.setFib f .idle).contFail c .aborted)
    | .data bs =>
      if bs = [] then some (({ s with rown := none }.setFib f .idle).contFail c .aborted)
      else if pos ≠ s.e.fed.length then none
      else ({ s with rown := none, e := s.e.commit bs, arrived := s.arrived ++ bs }.setFib f .idle).cont c
  | _ => some s

/-- A fiber that waits for a flag is run (397, 424, 122-125). -/
def S.resume (s : S) (f : FId) : Option S :=
  match s.fib f with
  | .waitW k => if s.wown = none then (s.setFib f .idle).cont k else some s
  | .waitR k => if s.rown = none then (s.setFib f .idle).cont k else some s
  | .waitIo => if s.wown = none ∧ s.rown = none then
      some ({ s with shut := .done }.setFib f .idle |>.emit [.shutDone]) else some s
  | _ => some s

/-! ### Asynchronous requests (tls_socket_async.cc) -/

/-- Changes a request that exists. -/
def S.modReq (s : S) (ρ : Role) (g : Req → Req) : S := s.setReq ρ ((s.req ρ).map g)

/-- `StartUpstreamWrite` (244-266). `none`: the failed CHECK, a second deferred request, or the failed
DCHECK, nothing to send. -/
def S.startUpW (s : S) (ρ : Role) : Option S :=
  match s.wown with
  | some _ => if s.blocked ≠ none then none else some { s with blocked := some ρ }
  | none => if s.e.out = [] then none
      else some ({ s with wown := some (.req ρ) }.modReq ρ fun q => { q with up := .wr s.e.out })

/-- `StartUpstreamRead` (69-89). -/
def S.startUpR (s : S) (ρ : Role) : Option S :=
  match s.rown with
  | some _ => if s.blocked ≠ none then none
      else some ({ s with blocked := some ρ }.modReq ρ fun q => { q with shouldRead := false })
  | none => some ({ s with rown := some (.req ρ) }.modReq ρ
      fun q => { q with shouldRead := false, up := .rd s.e.fed.length })

/-- `CompleteAsyncReq` (91-100) and the callbacks of `TrySend` (tls_socket.cc 751) and
`StartAsyncWriteForTryRecv` (587-598). -/
def S.complete (s : S) (ρ : Role) (res : Except Err Nat) : S :=
  match s.req ρ with
  | none => s
  | some q =>
    let s1 := s.setReq ρ none
    match q.kind with
    | .user _ => s1.emit [match res with | .ok n => .ret .async n | .error e => .fail .async e]
    | .read _ => s1.emit [match res with | .ok n => .rret .async n | .error e => .rfail .async e]
    | .flush false => s1
    | .flush true =>
      { s1 with drain := false }.emit (if s.hook then [.wake res.toBool] else [])

/-- `HandleOpAsync` (102-125, with `MaybeSendOutputAsyncWithRead` 38-48) with an opcode. NEED_WRITE comes with output pending, so the first lines of
`MaybeSendOutputAsync` (268-280) do not matter, and the rest of it is `StartUpstreamWrite`. -/
def S.handleOp (s : S) (ρ : Role) (o : Op) : Option S :=
  match o with
  | .needRead =>
    if s.e.out ≠ [] then
      (s.modReq ρ fun q => { q with shouldRead := true }).startUpW ρ
    else s.startUpR ρ
  | .needWrite => s.startUpW ρ
  | .abrupt => some (s.complete ρ (.error .reset))
  | .graceful => some (s.complete ρ (.ok 0))

/-- `AsyncReadSome` (127-153), without the log entry of the call. -/
def S.asyncRead (s : S) (n : Nat) : Option S :=
  if s.req .reader ≠ none ∨ n = 0 then none
  else match s.e.read n with
  | (.ok bs, e1) => some ({ s with e := e1 }.emit [.dec .async bs, .rret .async bs.length])
  | (.error .abrupt, e1) => some ({ s with e := e1 }.emit [.rfail .async .reset])
  | (.error .graceful, e1) => some ({ s with e := e1 }.emit [.rret .async 0])
  | (.error o, e1) =>
    ({ s with e := e1 }.setReq .reader (some ⟨.read n, 0, false, .none⟩)).handleOp .reader o

/-- `AsyncWriteSome` (294-315), without the log entry of the call. -/
def S.asyncWrite (s : S) (iov : List (List Nat)) : Option S :=
  if s.req .writer ≠ none then none
  else match push s.e iov with
  | none => none
  | some p =>
    let s1 := ({ s with e := p.eng }.emit [.enc .async (iov.flatten.take p.written)]).setReq .writer
      (some ⟨.user iov, p.written, false, .none⟩)
    match p.op with
    | none => s1.startUpW .writer
    | some o => s1.handleOp .writer o

/-- `RunPending` (317-336). -/
def S.runPending (s : S) : Option S :=
  match s.blocked with
  | none => some s
  | some ρ =>
    let s1 := { s with blocked := none }
    match s.req ρ with
    | none => some s1
    | some q =>
      if q.shouldRead then s1.startUpR ρ
      else match q.kind with
      | .user iov => (s1.setReq ρ none).asyncWrite iov
      | .flush _ => (s1.setReq ρ none).asyncWrite []
      | .read n => (s1.setReq ρ none).asyncRead n

/-- `AsyncRoleBasedAction` (209-242). -/
def S.roleAction (s : S) (ρ : Role) : Option S :=
  match s.req ρ with
  | none => some s
  | some q =>
    match q.kind with
    | .read n =>
      match s.e.read n with
      | (.ok bs, e1) => some (({ s with e := e1 }.emit [.dec .async bs]).complete ρ (.ok bs.length))
      | (.error o, e1) => { s with e := e1 }.handleOp ρ o
    | .flush _ => some (s.complete ρ (.ok 0))
    | .user iov =>
      if q.written > 0 then some (s.complete ρ (.ok q.written))
      else match push s.e iov with
      | none => none
      | some p =>
        let s1 := ({ s with e := p.eng }.emit [.enc .async (iov.flatten.take p.written)]).setReq ρ
          (some { q with written := p.written })
        match p.op with
        | none => s1.startUpW ρ
        | some o => s1.handleOp ρ o

/-- `AsyncWriteProgressCb` (155-207). -/
def S.aWDone (s : S) (ρ : Role) (k : Option Nat) : Option S :=
  match s.req ρ with
  | none => some s
  | some q =>
    match q.up with
    | .wr buf =>
      let s0 := s.setReq ρ (some { q with up := .none })
      match k with
      | none =>
        match ({ s0 with wown := none }.emit [.upFail]).runPending with
        | none => none
        | some s1 => some (s1.complete ρ (.error .net))
      | some k =>
        let s1 := { s0 with
          wire := s.wire ++ buf.take (k + 1), e := s.e.consume (min (k + 1) buf.length) }
        if s1.e.out ≠ [] then some (s1.setReq ρ (some { q with up := .wr s1.e.out }))
        else match { s1 with wown := none }.runPending with
          | none => none
          | some s2 => if q.shouldRead then s2.startUpR ρ else s2.roleAction ρ
    | _ => some s

/-- `AsyncReadProgressCb` (50-67). `none`: a failed CHECK in what it starts, or the bytes were not put
where the engine looks for them. -/
def S.aRDone (s : S) (ρ : Role) (r : Rd) : Option S :=
  match s.req ρ with
  | none => some s
  | some q =>
    match q.up with
    | .rd pos =>
      let s0 := s.setReq ρ (some { q with up := .none })
      match { s0 with rown := none }.runPending with
      | none => none
      | some s1 =>
        match r with
        | .err => some (s1.complete ρ (.error .net))
        | .eof => some (s1.complete ρ (.error .aborted))
        | .data bs =>
          if bs = [] then some (s1.complete ρ (.error .aborted))
          else if pos ≠ s1.e.fed.length then none
          else { s1 with e := s1.e.commit bs, arrived := s1.arrived ++ bs }.roleAction ρ
    | _ => some s

/-- `StartAsyncWrite` (25-36). -/
def S.startFlush (s : S) (drain : Bool) : Option S :=
  if s.req .writer ≠ none then none
  else ({ s with drain := s.drain || drain }.setReq .writer
    (some ⟨.flush drain, 0, false, .none⟩)).startUpW .writer

/-! ### The non-blocking calls -/

/-- The next answer of the socket below. -/
def S.ans (s : S) : UpAns × S :=
  match s.ups with
  | [] => (.again, s)
  | a :: l => (a, { s with ups := l })

/-- `next_sock_->TrySend(engine_->PeekOutputBuf())`, and taking what was sent from the engine: whether all
was sent, or an error. -/
def S.flushTry (s : S) : Except Err Bool × S :=
  match s.ans with
  | (.sent k, s1) =>
    (.ok (decide (s.e.out.length ≤ k + 1)),
      { s1 with wire := s.wire ++ s.e.out.take (k + 1), e := s.e.consume (min (k + 1) s.e.out.length) })
  | (.err, s1) => (.error .net, s1)
  | (_, s1) => (.error .again, s1)

/-- `next_sock_->TryRecv(engine_->PeekInputBuf())` and `CommitInput`. -/
def S.fillTry (s : S) : Except Err Unit × S :=
  match s.ans with
  | (.data bs, s1) => if bs = [] then (.error .reset, s1)
      else (.ok (), { s1 with e := s.e.commit bs, arrived := s.arrived ++ bs })
  | (.eof, s1) => (.error .reset, s1)
  | (.err, s1) => (.error .net, s1)
  | (_, s1) => (.error .again, s1)

/-- The loop of `TrySend` (632-735): what remains of the vectors, bytes sent so far. `none`: a failed
CHECK. Every round but the last uses up an answer of the engine. -/
def S.tsLoop : Nat → S → List (List Nat) → Nat → Option (S × Nat × Option Err)
  | 0, s, _, sent => some (s, sent, some .again)
  | fuel + 1, s, iov, sent =>
    if iov = [] ∧ s.e.out = [] then some (s, sent, none)
    else
      match (if s.e.out = [] then (.ok true, s) else s.flushTry) with
      | (.error e, s1) => some (s1, sent, some e)
      | (.ok false, s1) => some (s1, sent, some .again)
      | (.ok true, s1) =>
        let iov1 := iov.dropWhile (·.isEmpty)
        if iov1 = [] then some (s1, sent, none)
        else match push s1.e iov1 with
        | none => none
        | some p =>
          let s2 := { s1 with e := p.eng }.emit [.enc .try_ (iov1.flatten.take p.written)]
          match advance iov1 p.written with
          | none => none
          | some iov2 =>
            let sent2 := sent + p.written
            match p.op with
            | none => S.tsLoop fuel s2 iov2 sent2
            | some .needWrite => S.tsLoop fuel s2 iov2 sent2
            | some .needRead =>
              if s.rown ≠ none then some (s2, sent2, some .again)
              else match s2.fillTry with
              | (.ok _, s3) => S.tsLoop fuel s3 iov2 sent2
              | (.error e, s3) => some (s3, sent2, some e)
            | some .abrupt => some (s2, sent2, some .aborted)
            | some .graceful => some (s2, sent2, some .pipe)

/-- `TrySend` (608-760). -/
def S.trySend (s0 : S) (iov : List (List Nat)) : Option S :=
  let s := s0.emit [.call .try_ iov.flatten]
  if total iov = 0 then some (s.emit [.ret .try_ 0])
  else if s.wown ≠ none then some (s.emit [.fail .try_ .again])
  else match S.tsLoop (s.e.script.length + 2) s iov 0 with
  | none => none
  | some (s1, sent, st) =>
    if sent > 0 then
      match (if sent = total iov ∧ s1.e.out ≠ [] then s1.startFlush false else some s1) with
      | none => none
      | some s2 => some (s2.emit [.ret .try_ sent])
    else match st with
    | none => some (s1.emit [.ret .try_ 0])
    | some e => some (s1.emit [.fail .try_ e])

/-- The loop of `TryRecv` (783-919): room left, bytes so far. -/
def S.trLoop : Nat → S → Nat → Nat → Option (S × Nat × Option Err)
  | 0, s, _, got => some (s, got, some .reset)
  | _ + 1, s, 0, got => some (s, got, none)
  | fuel + 1, s, n + 1, got =>
    match s.e.read (n + 1) with
    | (.ok bs, e1) =>
      S.trLoop fuel ({ s with e := e1 }.emit [.dec .try_ bs]) (n + 1 - bs.length) (got + bs.length)
    | (.error .abrupt, e1) => some ({ s with e := e1 }, got, some .reset)
    | (.error .graceful, e1) => some ({ s with e := e1 }, got, none)
    | (.error o, e1) =>
      let s1 := { s with e := e1 }
      if s.wown ≠ none then some (s1, got, some (if s.drain then .again else .busy))
      else
        match (if s1.e.out = [] then (.ok true, s1) else s1.flushTry) with
        | (.error .again, s2) =>
          match s2.startFlush true with
          | none => none
          | some s3 => some (s3, got, some .again)
        | (.error e, s2) => some (s2, got, some e)
        | (.ok false, s2) =>
          match s2.startFlush true with
          | none => none
          | some s3 => some (s3, got, some .again)
        | (.ok true, s2) =>
          if o = .needWrite then S.trLoop fuel s2 (n + 1) got
          else if s.rown ≠ none then some (s2, got, some .busy)
          else match s2.fillTry with
          | (.ok _, s3) => S.trLoop fuel s3 (n + 1) got
          | (.error .again, s3) => some (s3.emit [.empty], got, some .again)
          | (.error e, s3) => some (s3, got, some e)

/-- `TryRecv` (770-929). -/
def S.tryRecv (s0 : S) (n : Nat) : Option S :=
  let s := s0.emit [.rcall .try_]
  if s.fib .r ≠ .idle then some (s.emit [.rfail .try_ .inProgress])
  else match S.trLoop (s.e.script.length + 2) s n 0 with
  | none => none
  | some (s1, got, st) =>
    if got > 0 then some (s1.emit [.rret .try_ got])
    else match st with
    | none => some (s1.emit [.rret .try_ 0])
    | some e => some (s1.emit [.rfail .try_ e])

/-! ### The whole -/

/-- What can happen. -/
inductive Act
  | write (iov : List (List Nat))
  | recv (caps : List Nat)
  | shutdown
  | trySend (iov : List (List Nat))
  | tryRecv (n : Nat)
  | asyncRead (n : Nat)
  | asyncWrite (iov : List (List Nat))
  | setHook (on : Bool)
  | netW (f : FId) (k : Option Nat)
  | netR (f : FId) (r : Rd)
  | resume (f : FId)
  | aW (ρ : Role) (k : Option Nat)
  | aR (ρ : Role) (r : Rd)
deriving DecidableEq, Repr

/-- One step. Calls of a fiber that is inside a call are not steps. `none`: a failed CHECK, a loop that
never ends, or input put in the wrong place. -/
def S.step (s : S) : Act → Option S
  | .write iov => if s.fib .w = .idle then (s.emit [.call .sync iov.flatten]).wLoop iov else some s
  | .recv caps =>
    if s.fib .r = .idle then
      if caps = [] ∨ 0 ∈ caps then none else some ((s.emit [.rcall .sync]).rLoop caps 0)
    else some s
  | .shutdown =>
    if s.fib .h = .idle ∧ s.shut = .no then
      match s.e.shutdown with
      | (b, e1) =>
        let s1 := { s with e := e1, shut := .inProgress }
        if b = true ∧ s1.wown = none ∧ e1.out ≠ [] then some (s1.netW .h .hSend false)
        else some s1.hNext
    else some s
  | .trySend iov => s.trySend iov
  | .tryRecv n => s.tryRecv n
  | .asyncRead n => (s.emit [.rcall .async]).asyncRead n
  | .asyncWrite iov => (s.emit [.call .async iov.flatten]).asyncWrite iov
  | .setHook on => some { s with hook := on }
  | .netW f k => s.netWDone f k
  | .netR f r => s.netRDone f r
  | .resume f => s.resume f
  | .aW ρ k => s.aWDone ρ k
  | .aR ρ r => s.aRDone ρ r

/-- A history of steps. -/
def S.run (s : S) : List Act → Option S
  | [] => some s
  | a :: l => match s.step a with | none => none | some s1 => s1.run l

end Verif.Tls
