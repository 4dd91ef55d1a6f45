import Verif.Common.TS
/-!
The wake-up protocol of a proactor: `ProactorBase::WakeupIfNeeded`, `EmplaceTaskQueue` (util/fibers/proactor_base.h 300-307,
342-360), `Scheduler::ScheduleFromRemote` (util/fibers/detail/scheduler.cc 290-325), `ProactorDispatcher::Notify`
(proactor_base.cc 440-442), `WakeRing` (epoll_proactor.cc 459-473, uring_proactor.cc 1059-1080), and the part of the main loops that
concerns it: `EpollProactor::MainLoop` (epoll_proactor.cc 185-330) and `UringProactor::MainLoop` (uring_proactor.cc 819-1030).

One proactor thread and any number of producers (threads, or fibers of this very proactor), named by numbers. Two inboxes: the
task queue (`base::mpmc_bounded_queue`) and the remote-ready queue of the scheduler (`base::MPSCIntrusiveQueue`). Both are modelled
by positions: a producer first claims the next position and later publishes it; `Verif.Mpmc` and `Verif.Mpsc` model them access by
access. Simplifications: atomics are sequentially consistent; capacity is left out (more claims are possible than in the code);
what runs between the modelled steps of the loop (tasks, fibers, idle tasks, completions) shows only as what it does to the
inboxes, through producers; timers and other I/O are a wait that returns at any time.
-/
namespace Verif.Proactor
open Verif.Common

/-- `WAIT_SECTION_STATE` (proactor_base.h 224). -/
def waitVal : Nat := 2 ^ 31

/-- An inbox: the next position to claim, the published positions, the next position to take. -/
structure Inbox where
  tail : Nat
  pub : Nat → Bool
  head : Nat

/-- Where a producer is: not in a call; has claimed a position of the inbox and is about to publish it; about to add 2 to
`tq_seq_`; about to call `WakeRing`. -/
inductive PPc
  | idle | claimed (remote : Bool) (p : Nat) | add (remote : Bool) (p : Nat) | wake (remote : Bool) (p : Nat)
  deriving DecidableEq, Repr

/-- Where the main loop is: about to load `tq_seq_`; taking tasks; taking remote fibers; past both, about to decide; about to
test the inboxes for emptiness (uring only); about to try the compare-and-swap; waiting in the kernel without limit; about to
store 0 to `tq_seq_`. -/
inductive CPc
  | load | tasks | remote | rest | empty1 | empty2 | cas | blocked | store
  deriving DecidableEq, Repr

structure State where
  uring : Bool
  /-- `tq_seq_`, a 32 bit word. -/
  seq : Nat
  tq : Inbox
  rq : Inbox
  /-- The kernel has a wake-up event for this proactor (eventfd readable, or a message completion). -/
  ev : Bool
  cpc : CPc
  /-- The local variable `tq_seq`. -/
  loc : Nat
  /-- The local variable `task_queue_exhausted` / `!has_cpu_work`. -/
  done : Bool
  ppc : Nat → PPc
  /-- History: additions to `tq_seq_` since the loop last loaded it, set it to the wait value, or set it to 0. -/
  adds : Nat

def fresh : Inbox := { tail := 0, pub := fun _ => false, head := 0 }

def start (uring : Bool) : State :=
  { uring, seq := 0, tq := fresh, rq := fresh, ev := false, cpc := .load, loc := 0, done := true, ppc := fun _ => .idle, adds := 0 }

def Init (s : State) : Prop := ∃ u, s = start u

def Inbox.claim (q : Inbox) : Inbox := { q with tail := q.tail + 1 }
def Inbox.publish (q : Inbox) (p : Nat) : Inbox := { q with pub := upd q.pub p true }
/-- What a consumer sees: an item at the next position that is published. -/
def Inbox.avail (q : Inbox) : Bool := q.head < q.tail && q.pub q.head
def Inbox.take (q : Inbox) : Inbox := { q with head := q.head + 1 }

/-- What the main loop chooses: go on, or do the other thing. And what may happen to its wait: a timer or another event ends it,
or a signal. -/
inductive Ch
  | go | alt | other | intr
  deriving DecidableEq, Repr

/-- One step of the main loop. -/
def stepC (s : State) (c : Ch) : Option State :=
  match s.cpc with
  | .load => some { s with loc := s.seq, adds := 0, done := true, cpc := .tasks } -- epoll 188-190, uring 857
  | .tasks =>
    -- epoll 192-222, uring 862-881: dequeue and run; the loop stops when a dequeue fails or the time is up
    if s.tq.avail then
      match c with
      | .go => some { s with tq := s.tq.take }
      | _ => some { s with tq := s.tq.take, done := false, cpc := .remote }
    else some { s with cpc := .remote }
  | .remote =>
    -- ProcessRemoteReady (scheduler.cc 384-449): takes all; while an item is claimed and not published it retries
    if s.rq.avail then some { s with rq := s.rq.take }
    else if s.rq.head < s.rq.tail then none
    else some { s with cpc := .rest }
  | .rest =>
    -- epoll 229-248: no attempt to block: poll once and store 0; uring 885-964: any of the `continue`s
    match c with
    | .go => if s.done then some { s with cpc := if s.uring then .empty1 else .cas } else none
    | _ => some { s with cpc := if s.uring then .load else .store }
  | .empty1 =>
    -- uring 1000: `task_queue_.empty()` looks at the next position (mpmc_bounded_queue.h 166-172)
    some { s with cpc := if s.tq.avail then .load else .empty2 }
  | .empty2 =>
    -- uring 1000: `RemoteEmpty()`
    some { s with cpc := if s.rq.head < s.rq.tail then .load else .cas }
  | .cas =>
    -- compare_exchange_weak, which may also fail spuriously
    if s.seq = s.loc ∧ c = .go then some { s with seq := waitVal, adds := 0, cpc := .blocked }
    else some { s with cpc := if s.uring then .load else .store }
  | .blocked =>
    -- the wait returns: for the wake-up event, or for another event or a timer; `intr`: EINTR (epoll 273-276 skips the store)
    match c with
    | .go => if s.ev then some { s with cpc := .store } else none
    | .alt => none
    | .other => some { s with cpc := .store }
    | .intr => if s.uring then none else some { s with cpc := .load }
  | .store => some { s with seq := 0, adds := 0, cpc := .load } -- epoll 280, uring 1028

/-- Consuming the wake-up event (epoll: the eventfd callback, 176-180; uring: reaping the completion). It happens in the loop,
never while it waits. -/
def stepEat (s : State) : Option State :=
  if s.cpc ≠ .blocked ∧ s.ev then some { s with ev := false } else none

/-- One step of a producer. -/
def stepP (s : State) (t : Nat) : Option State :=
  match s.ppc t with
  | .idle => none
  | .claimed r p =>
    let s' := { s with ppc := upd s.ppc t (.add r p) }
    some (if r then { s' with rq := s.rq.publish p } else { s' with tq := s.tq.publish p })
  | .add r p =>
    -- proactor_base.h 350-357
    let s' := { s with seq := (s.seq + 2) % 2 ^ 32, adds := s.adds + 1 }
    some { s' with ppc := upd s.ppc t (if s.seq = waitVal then .wake r p else .idle) }
  | .wake _ _ => some { s with ev := true, ppc := upd s.ppc t .idle }

inductive Act
  | c (c : Ch) | eat | p (t : Nat)
  /-- A call: `EmplaceTaskQueue` (`false`) or `ScheduleFromRemote` (`true`), up to the claim of a position. -/
  | call (t : Nat) (remote : Bool)

def step (s : State) : Act → Option State
  | .c c => stepC s c
  | .eat => stepEat s
  | .p t => stepP s t
  | .call t r =>
    if s.ppc t = .idle then
      some (if r then { s with rq := s.rq.claim, ppc := upd s.ppc t (.claimed true s.rq.tail) }
        else { s with tq := s.tq.claim, ppc := upd s.ppc t (.claimed false s.tq.tail) })
    else none

end Verif.Proactor
