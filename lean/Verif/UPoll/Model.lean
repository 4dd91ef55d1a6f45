import Verif.Common.TS
/-!
# Polls on the io_uring proactor

* the error callback of the uring socket: `RegisterOnErrorCb`, `CancelOnErrorCb` (util/fibers/uring_socket.cc 391-453),
  `Close` (68-80) and `ErrorCbRefWrapper` (util/fibers/uring_socket.h 93-119);
* `EpollAdd`, `RearmEpoll`, `EpollDel` (util/fibers/uring_proactor.cc 580-656), which the receive hook
  (uring_socket.cc 530-546) and the DNS resolver use;
* the part of the ring they need: `GetSubmitEntry` (369-403) gives a request a free position of the callback table and a
  tag, requests wait in the submission queue, the kernel takes them in order, completions come in order and are
  dispatched by position (`ProcessCqeBatch` 279-321).

One proactor thread; its fibers and callbacks interleave at the points where they wait. The kernel is any environment that
* takes requests in the order of the submission queue,
* reports on a poll any number of events, then a final completion (a one-shot poll: only one),
* on POLL_REMOVE looks for a poll with these user data: it removes it (the poll then ends with -ECANCELED, some time), or
  says -EALREADY, or, if there is none, -ENOENT.

Simplifications:
* The free position is any free one (its choice is the model `Completion`); the table grows when needed. Numbers do not
  overflow (`epoll_add_id_` is 32 bit in the code).
* A request has a ghost number `rid`, and a completion carries the `rid` of the request it is for; the code sees only user
  data. Requests of other kinds are `other`, treated as polls too, with tag 0.
* A callback that makes calls itself is followed by these calls: the code touches nothing after the user's callback, except
  that `RearmEpoll` takes a position, which may be any free one.
* `EpollDel` is called at most once on an index (the callers drop it).
* `pending_epoll_removals_` (only checked at exit) is left out. `LOG(DFATAL)` in `Close` goes on, as in a release build.
* `badW`, `badE`, `badSlot`: a freed wrapper, a freed entry or an empty table position was used.
-/
namespace Verif.UPoll
open Verif.Common

/-- User data: position in the table, tag. -/
abbrev Ud := Nat × Nat

/-- What a request is: the poll of an error callback, the poll of an epoll entry, the removals of these, another one. -/
inductive Kind
  | err (w : Nat)
  | ent (e : Nat)
  | rmErr (w : Nat) (target : Ud)
  | rmEnt (e : Nat) (target : Ud)
  | other
deriving DecidableEq, Repr

/-- The poll of an error callback reports once. -/
def Kind.oneShot : Kind → Bool
  | .err _ => true
  | _ => false

/-- Where a request is: in the submission queue, waiting in the kernel, removed there but not reported yet, finally
completed with the completion in the queue, and processed. -/
inductive Stage
  | queued | kern | dying | done | gone
deriving DecidableEq, Repr

structure R where
  ud : Ud
  kind : Kind
  stage : Stage
deriving DecidableEq, Repr

/-- The result of a completion: an event mask (`res >= 0` of a poll), 0, and errors. -/
inductive Res
  | ev (mask : Nat)
  | ok | cancelled | enoent | ealready
  | fail
deriving DecidableEq, Repr

/-- A completion; `more` is IORING_CQE_F_MORE; `rid` is ghost. -/
structure Cqe where
  rid : Nat
  ud : Ud
  res : Res
  more : Bool
deriving DecidableEq, Repr

/-- `ErrorCbRefWrapper` (uring_socket.h 93-119): `error_cb_id` (`none`: kInvalidErrorCbId), `ref_count` (0: deleted) and
whether `cb` is set. Ghost: the request, the socket, and whether the socket still refers to it. -/
structure W where
  rid : Nat
  sock : Nat
  held : Bool
  id : Option Nat
  ref : Nat
  cb : Bool
deriving DecidableEq, Repr

/-- `EpollEntry` (uring_proactor.h 172-178): `index`. Ghost: the request last armed, whether it is deleted, and whether
`EpollDel` was called. -/
structure E where
  rid : Nat
  ud : Ud
  freed : Bool
  del : Bool
deriving DecidableEq, Repr

/-- What happens. -/
inductive Ev
  | reg (w sock : Nat)
  | cancelStart (w : Nat)
  | cancelEnd (w : Nat)
  | closed (w : Nat)
  | called (w mask : Nat)
  | freedW (w : Nat)
  | add (e : Nat)
  | delStart (e : Nat)
  | delEnd (e : Nat)
  | event (e mask : Nat)
  | rearm (e : Nat)
  | kfail (e : Nat)
  | freedE (e : Nat)
  /-- the kernel reports an event on request `r` -/
  | kev (r mask : Nat)
deriving DecidableEq, Repr

structure S where
  reqs : List R
  sq : List Nat
  cq : List Cqe
  slots : Nat → Option Nat
  ws : List W
  es : List E
  /-- `error_cb_wrapper_` of every socket -/
  socks : Nat → Option Nat
  /-- `epoll_add_id_` -/
  tag : Nat
  /-- fibers in `EpollDel` that got -EALREADY and try again -/
  retry : List (Nat × Ud)
  log : List Ev
  badW : Bool
  badE : Bool
  badSlot : Bool

/-- A new proactor. -/
def S.init : S :=
  { reqs := [], sq := [], cq := [], slots := fun _ => none, ws := [], es := [], socks := fun _ => none, tag := 1,
    retry := [], log := [], badW := false, badE := false, badSlot := false }

inductive Act
  /-- calls on socket `sock`; `k` is the position the request gets -/
  | reg (sock k : Nat)
  | cancel (sock k : Nat)
  | close (sock : Nat)
  | add (k : Nat)
  | del (e k : Nat)
  | retry (i k : Nat)
  | other (k : Nat)
  /-- the kernel takes the next request: a poll; a removal that finds `r`, finds it busy, finds nothing -/
  | submit
  | removeHit (r : Nat)
  | removeBusy (r : Nat)
  | removeMiss
  /-- the kernel reports -/
  | event (r mask : Nat) (more : Bool)
  | die (r : Nat)
  | fail (r : Nat)
  /-- `ProcessCqeBatch`: the next completion; `k` is the position for a poll that is armed again -/
  | complete (k : Nat)
deriving DecidableEq, Repr

def S.emit (s : S) (e : Ev) : S := { s with log := s.log ++ [e] }

/-- `GetSubmitEntry` (369-403) with position `k`. -/
def S.submitReq (s : S) (k tag : Nat) (kind : Kind) : S :=
  { s with
    reqs := s.reqs ++ [⟨(k, tag), kind, .queued⟩]
    sq := s.sq ++ [s.reqs.length]
    slots := upd s.slots k (some s.reqs.length) }

def S.setStage (s : S) (r : Nat) (st : Stage) : S :=
  { s with reqs := match s.reqs[r]? with | some R => s.reqs.set r { R with stage := st } | none => s.reqs }

def S.post (s : S) (c : Cqe) : S := { s with cq := s.cq ++ [c] }

/-- `ErrorCbRefWrapper::Destroy` (109-113). -/
def S.destroy (s : S) (w : Nat) : S :=
  match s.ws[w]? with
  | none => { s with badW := true }
  | some x =>
    if x.ref = 0 then { s with badW := true }
    else
      let s := { s with ws := s.ws.set w { x with cb := false, ref := x.ref - 1 } }
      if x.ref = 1 then s.emit (.freedW w) else s

/-- The socket forgets the wrapper. -/
def S.unhold (s : S) (sock w : Nat) : S :=
  { s with
    socks := upd s.socks sock none
    ws := match s.ws[w]? with | some x => s.ws.set w { x with held := false } | none => s.ws }

/-- `RegisterOnErrorCb` (391-421). The CHECK that nothing is registered fails: `none`. -/
def S.reg (s : S) (sock k : Nat) : Option S :=
  if s.socks sock = none ∧ s.slots k = none then
    let w := s.ws.length
    let s1 := { s with ws := s.ws ++ [W.mk s.reqs.length sock true (some k) 2 true], socks := upd s.socks sock (some w) }
    some ((s1.submitReq k 0 (.err w)).emit (.reg w sock))
  else none

/-- `CancelOnErrorCb` (423-453), up to the wait. -/
def S.cancel (s : S) (sock k : Nat) : Option S :=
  match s.socks sock with
  | none => some s
  | some w =>
    match s.ws[w]? with
    | none => some { s with badW := true }
    | some x =>
      if x.ref = 0 then some { s with badW := true }
      else
        match x.id with
        | none => some (((s.emit (.cancelStart w)).destroy w).unhold sock w)
        | some i =>
          if s.slots k = none then
            some ((((s.emit (.cancelStart w)).submitReq k 0 (.rmErr w (i, 0))).destroy w).unhold sock w)
          else none

/-- `Close` (76-80), as far as the error callback goes. -/
def S.close (s : S) (sock : Nat) : S :=
  match s.socks sock with
  | none => s
  | some w => ((s.emit (.closed w)).destroy w).unhold sock w

/-- `EpollAdd` and `RearmEpoll` for a new entry (580-619). -/
def S.add (s : S) (k : Nat) : Option S :=
  if s.slots k = none then
    let e := s.es.length
    let s1 := { s with es := s.es ++ [E.mk s.reqs.length (k, s.tag) false false], tag := s.tag + 1 }
    some ((s1.submitReq k s.tag (.ent e)).emit (.add e))
  else none

/-- `RearmEpoll` for an entry (595-619). -/
def S.rearm (s : S) (e k : Nat) (x : E) : S :=
  let s1 := { s with es := s.es.set e { x with rid := s.reqs.length, ud := (k, s.tag) }, tag := s.tag + 1 }
  (s1.submitReq k s.tag (.ent e)).emit (.rearm e)

/-- `EpollDel` (621-649), up to the wait. -/
def S.del (s : S) (e k : Nat) : Option S :=
  match s.es[e]? with
  | none => none
  | some x =>
    if x.del then none
    else if x.freed then some { s with badE := true, es := s.es.set e { x with del := true } }
    else if s.slots k = none then
      let s1 := { s with es := s.es.set e { x with del := true } }
      some ((s1.submitReq k 0 (.rmEnt e x.ud)).emit (.delStart e))
    else none

/-- The completion of the poll of an error callback (401-415). -/
def S.runErr (s : S) (w : Nat) (res : Res) : S :=
  match s.ws[w]? with
  | none => { s with badW := true }
  | some x =>
    if x.ref = 0 then { s with badW := true }
    else
      let s1 := ({ s with ws := s.ws.set w { x with id := none } }).destroy w
      match res with
      | .ev m => if x.cb then s1.emit (.called w m) else s1
      | _ => s1

/-- The completion of the poll of an entry (596-613); `k` is a free position. -/
def S.runEnt (s : S) (e : Nat) (c : Cqe) (k : Nat) : Option S :=
  match s.es[e]? with
  | none => some { s with badE := true }
  | some x =>
    if x.freed then some { s with badE := true }
    else
      match c.res with
      | .ev m =>
        let s1 := s.emit (.event e m)
        if c.more then some s1
        else if s.slots k = none then some (s1.rearm e k x) else none
      | res =>
        let s1 := if res = .cancelled then s else s.emit (.kfail e)
        some ({ s1 with es := s1.es.set e { x with freed := true } }.emit (.freedE e))

/-- `ProcessCqeBatch` (279-321) for one completion. -/
def S.complete (s : S) (k : Nat) : Option S :=
  match s.cq with
  | [] => none
  | c :: rest =>
    let s0 := { s with cq := rest }
    match s.slots c.ud.1 with
    | none => some { s0 with badSlot := true }
    | some r =>
      match s.reqs[r]? with
      | none => some { s0 with badSlot := true }
      | some q =>
        let s1 := if c.more then s0 else { s0.setStage r .gone with slots := upd s.slots c.ud.1 none }
        match q.kind with
        | .err w => some (s1.runErr w c.res)
        | .ent e => s1.runEnt e c k
        | .rmErr w _ => some (s1.emit (.cancelEnd w))
        | .rmEnt e t =>
          if c.res = .ealready then some { s1 with retry := s1.retry ++ [(e, t)] } else some (s1.emit (.delEnd e))
        | .other => some s1

/-- The kernel takes the first request, a removal with user data `t`. -/
def S.takeRemove (s : S) : Option (Nat × R × Ud × S) :=
  match s.sq with
  | [] => none
  | p :: rest =>
    match s.reqs[p]? with
    | none => none
    | some q =>
      match q.kind with
      | .rmErr _ t | .rmEnt _ t => some (p, q, t, ({ s with sq := rest }.setStage p .done))
      | _ => none

/-- A poll with user data `t` waits in the kernel. -/
def S.waitingB (s : S) (r : Nat) (t : Ud) : Bool :=
  match s.reqs[r]? with
  | some q => q.stage == .kern && q.ud == t
  | none => false

def S.step (s : S) : Act → Option S
  | .reg sock k => s.reg sock k
  | .cancel sock k => s.cancel sock k
  | .close sock => some (s.close sock)
  | .add k => s.add k
  | .del e k => s.del e k
  | .retry i k =>
    -- the loop 643-649
    match s.retry[i]? with
    | none => none
    | some (e, t) =>
      if s.slots k = none then some ({ s with retry := s.retry.eraseIdx i }.submitReq k 0 (.rmEnt e t)) else none
  | .other k => if s.slots k = none then some (s.submitReq k 0 .other) else none
  | .submit =>
    match s.sq with
    | [] => none
    | p :: rest =>
      match s.reqs[p]? with
      | none => none
      | some q =>
        match q.kind with
        | .rmErr _ _ | .rmEnt _ _ => none
        | _ => some ({ s with sq := rest }.setStage p .kern)
  | .removeHit r =>
    match s.takeRemove with
    | none => none
    | some (p, q, t, s1) =>
      if s.waitingB r t then some ((s1.setStage r .dying).post ⟨p, q.ud, .ok, false⟩) else none
  | .removeBusy r =>
    match s.takeRemove with
    | none => none
    | some (p, q, t, s1) => if s.waitingB r t then some (s1.post ⟨p, q.ud, .ealready, false⟩) else none
  | .removeMiss =>
    match s.takeRemove with
    | none => none
    | some (p, q, t, s1) =>
      if (List.range s.reqs.length).all fun r => !s.waitingB r t then some (s1.post ⟨p, q.ud, .enoent, false⟩) else none
  | .event r mask more =>
    match s.reqs[r]? with
    | none => none
    | some q =>
      if q.stage = .kern ∧ (more = true → q.kind.oneShot = false) then
        let s1 := (s.post ⟨r, q.ud, .ev mask, more⟩).emit (.kev r mask)
        some (if more then s1 else s1.setStage r .done)
      else none
  | .die r =>
    match s.reqs[r]? with
    | none => none
    | some q => if q.stage = .dying then some ((s.post ⟨r, q.ud, .cancelled, false⟩).setStage r .done) else none
  | .fail r =>
    match s.reqs[r]? with
    | none => none
    | some q => if q.stage = .kern then some ((s.post ⟨r, q.ud, .fail, false⟩).setStage r .done) else none
  | .complete k => s.complete k

/-- All executions start with a new proactor. -/
def Init (s : S) : Prop := s = S.init

abbrev step (s : S) (a : Act) : Option S := s.step a

end Verif.UPoll
