import Verif.RelAcq.Model
/-!
The wake-up protocol of a proactor (as in `Verif.Proactor`) over the memory of C++ threads: `ProactorBase::WakeupIfNeeded`
(util/fibers/proactor_base.h 362-380), `EmplaceTaskQueue` (proactor_base.h 333-340), and the main loops of `EpollProactor`
(epoll_proactor.cc 187-300) and `UringProactor` (uring_proactor.cc 857-1028), access by access with their memory orders.

Thread 0 is the proactor; all others put tasks into its queue. Simplifications: of the task queue only the cell sequence numbers are
modelled, one location per task (0: empty, 1: filled), and the claim of a position is one step; the remote-ready queue has the same
shape and is left out; numbers do not wrap; tasks and fibers do not show; a wait may also end for another reason at any time. The
kernel's wake-up event passes the view of the waker on if `sync` is set; C++ does not promise it.
-/
namespace Verif.WakeRA
open Verif.Common Verif.RelAcq

/-- What the code does, and alternatives to compare it with. -/
structure Cfg where
  /-- `tq_seq_.fetch_add(2, acq_rel)`; else relaxed (proactor_base.h 371 and the comment above it) -/
  addRel : Bool
  /-- After a wait `tq_seq_` is set to 0 by a read-modify-write; the code uses a store (epoll_proactor.cc 282, uring_proactor.cc 1028). -/
  resetRmw : Bool
  /-- The event carries the view of the waker. -/
  sync : Bool

/-- The code. -/
def theCode (sync : Bool) : Cfg := ⟨true, false, sync⟩

inductive Loc
  /-- `tq_seq_` -/
  | seq
  /-- the sequence number of the cell of a task -/
  | task (k : Nat)
  deriving DecidableEq

/-- `WAIT_SECTION_STATE` (proactor_base.h 225) -/
def waitVal : Nat := 2 ^ 31

/-- A thread that puts tasks: not in a call; has claimed the position of a task (mpmc_bounded_queue.h 92-99); has filled it and is about to add to
`tq_seq_`; about to call `WakeRing`. -/
inductive PPc
  | idle | claimed (k : Nat) | add (k : Nat) | wake
  deriving DecidableEq

/-- The main loop: about to load `tq_seq_`; taking tasks; has found the queue empty; in the wait; about to set `tq_seq_` to 0. -/
inductive CPc
  | load | drain | empty | wait | reset
  deriving DecidableEq

structure State where
  m : Mem Loc
  cpc : CPc
  /-- the local variable `tq_seq` -/
  loc : Nat
  /-- the next task to take -/
  pos : Nat
  ppc : Nat → PPc
  /-- the next position to claim -/
  next : Nat
  /-- wake-up events the proactor has not seen -/
  tok : Nat
  tokView : View Loc
  /-- History, read by no step: the first message of the current run of `tq_seq_` (the last store of 0) and its last message; the message
  the loop loaded; the message that announces the wait; the message with which each task was announced. -/
  base : Nat
  top : Nat
  at0 : Nat
  wAt : Nat
  addAt : Nat → Option Nat

def start : State :=
  { m := Mem.start (fun _ => 0), cpc := .load, loc := 0, pos := 0, ppc := fun _ => .idle, next := 0, tok := 0, tokView := zero,
    base := 0, top := 0, at0 := 0, wAt := 0, addAt := fun _ => none }

inductive Act
  | load (ts : Nat) | take (ts : Nat) | empty (ts : Nat) | spin | poll | cas (ts : Nat) | fail (ts : Nat) (poll : Bool)
  | wake | other | intr | reset (ts : Nat)
  | claim (t : Nat) | fill (t ts : Nat) | add (t ts : Nat) | ring (t : Nat)
  deriving DecidableEq

/-- `tq_seq = tq_seq_.load(acquire)` (epoll_proactor.cc 202, uring_proactor.cc 857) -/
def doLoad (s : State) (ts : Nat) : Option State :=
  match s.m.load 0 .seq true ts with
  | none => none
  | some (v, m) => some { s with m, loc := v, at0 := ts, cpc := .drain }

/-- `task_queue_.try_dequeue` (epoll_proactor.cc 204-225, uring_proactor.cc 862-875; mpmc_bounded_queue.h 117): the cell is filled. -/
def doTake (s : State) (ts : Nat) : Option State :=
  match s.m.load 0 (.task s.pos) true ts with
  | none => none
  | some (v, m) => if v = 1 then some { s with m, pos := s.pos + 1 } else none

/-- The cell is not filled. -/
def doEmpty (s : State) (ts : Nat) : Option State :=
  match s.m.load 0 (.task s.pos) true ts with
  | none => none
  | some (v, m) => if v = 0 then some { s with m, cpc := .empty } else none

/-- `tq_seq_.compare_exchange_weak(tq_seq, WAIT_SECTION_STATE, ...)` (epoll_proactor.cc 245, uring_proactor.cc 1001): success. The
weaker order of the two loops: acquire. -/
def doCas (s : State) (ts : Nat) : Option State :=
  match s.m.cas 0 .seq s.loc waitVal true false ts with
  | none => none
  | some m => some { s with m, cpc := .wait, wAt := ts + 1, top := if ts = s.top then ts + 1 else s.top }

/-- The same: failure, for good reason or spuriously. -/
def doFail (s : State) (ts : Nat) (poll : Bool) : Option State :=
  match s.m.load 0 .seq false ts with
  | none => none
  | some (_, m) => some { s with m, cpc := if poll then .reset else .load }

/-- The event ends the wait (epoll_proactor.cc 267, 178-182; uring_proactor.cc 1012). -/
def doWake (c : Cfg) (s : State) : State :=
  { s with tok := 0, cpc := .reset, m := if c.sync then { s.m with cur := upd s.m.cur 0 (join (s.m.cur 0) s.tokView) } else s.m }

/-- `tq_seq_.store(0, release)` (epoll_proactor.cc 282, uring_proactor.cc 1028), or the alternative. -/
def doReset (c : Cfg) (s : State) (ts : Nat) : Option State :=
  if c.resetRmw then
    match s.m.rmw 0 .seq (fun _ => 0) true true ts with
    | none => none
    | some (_, m) => some { s with m, cpc := .load, top := if ts = s.top then ts + 1 else s.top }
  else
    match s.m.store 0 .seq 0 true ts with
    | none => none
    | some m => some { s with m, cpc := .load, base := ts, top := ts }

/-- The task is put into its cell (mpmc_bounded_queue.h 105-106). -/
def doFill (s : State) (t k ts : Nat) : Option State :=
  match s.m.store t (.task k) 1 true ts with
  | none => none
  | some m => some { s with m, ppc := upd s.ppc t (.add k) }

/-- `tq_seq_.fetch_add(2, acq_rel)` and the test (proactor_base.h 371-380) -/
def doAdd (c : Cfg) (s : State) (t k ts : Nat) : Option State :=
  match s.m.rmw t .seq (· + 2) c.addRel c.addRel ts with
  | none => none
  | some (v, m) => some { s with
      m
      ppc := upd s.ppc t (if v = waitVal then .wake else .idle)
      addAt := upd s.addAt k (some (ts + 1))
      top := if ts = s.top then ts + 1 else s.top }

def step (c : Cfg) (s : State) : Act → Option State
  | .load ts => if s.cpc = .load then doLoad s ts else none
  | .take ts => if s.cpc = .drain then doTake s ts else none
  | .empty ts => if s.cpc = .drain then doEmpty s ts else none
  -- the loop goes on without a wait (uring_proactor.cc 893-975)
  | .spin => if s.cpc = .drain ∨ s.cpc = .empty then some { s with cpc := .load } else none
  -- `epoll_wait` without a wait (epoll_proactor.cc 267-282)
  | .poll => if s.cpc = .drain ∨ s.cpc = .empty then some { s with cpc := .reset } else none
  | .cas ts => if s.cpc = .empty then doCas s ts else none
  | .fail ts poll => if s.cpc = .empty then doFail s ts poll else none
  | .wake => if s.cpc = .wait ∧ 0 < s.tok then some (doWake c s) else none
  -- a timer or another event
  | .other => if s.cpc = .wait then some { s with cpc := .reset } else none
  -- `EINTR` (epoll_proactor.cc 277-278): no reset
  | .intr => if s.cpc = .wait then some { s with cpc := .load } else none
  | .reset ts => if s.cpc = .reset then doReset c s ts else none
  | .claim t => if t ≠ 0 ∧ s.ppc t = .idle then some { s with ppc := upd s.ppc t (.claimed s.next), next := s.next + 1 } else none
  | .fill t ts =>
    match s.ppc t with
    | .claimed k => doFill s t k ts
    | _ => none
  | .add t ts =>
    match s.ppc t with
    | .add k => doAdd c s t k ts
    | _ => none
  -- `WakeRing` (epoll_proactor.cc 459-473, uring_proactor.cc 1059-1080)
  | .ring t =>
    if s.ppc t = .wake then some { s with ppc := upd s.ppc t .idle, tok := s.tok + 1, tokView := join s.tokView (s.m.cur t) } else none

end Verif.WakeRA
