import Verif.Common.TS

/-!
# The fiber scheduler of one thread: `/repo/util/fibers/detail/scheduler.cc`

The ready queues, the sleep queue and the switches between fibers. Fiber 0 is the dispatcher
(`dispatch_cntx_`), fiber 1 the thread's main fiber.

Simplifications:
* One move of the model is one call into the scheduler by the fiber that runs (`act`); fibers of a
  thread do not run concurrently. The moves of other threads are `notifyRemote`, which may come at any
  time, and the clock `tick`.
* The dispatcher's loop (`DefaultDispatch` 110-154, or a proactor's `MainLoop`) is not fixed: it may
  call `ProcessRemoteReady`, `ProcessSleep`, `RunReadyFibersInternal` and `DestroyTerminated` in any
  order and any number of times, so the theorems hold for every dispatch policy. The cycle budgets of
  `Run` and `Preempt`, which only decide which of these comes next, become choices (`yieldKeep`,
  `yieldSleep`).
* A fiber that suspends is registered with something that will wake it once (`reg`): a wait queue or
  an I/O completion. The waker unregisters it under a lock and calls `ActivateOther`. A fiber that
  resumes first unregisters itself and leaves the remote queue (`finish`), as
  `EventCount::wait_until` (synchronization.cc 14-50) does.
* `remote_ready_queue_` is an atomic FIFO here; `Verif.Mpsc` models its implementation.
* Time points are natural numbers up to `T`, which is `time_point::max()`. The clock is below `T`.
* `bad` is undefined behaviour: linking an intrusive hook that is already linked (a `DCHECK` only), or
  taking the front of an empty list. `crash` is a failed `CHECK`. Both stop the model.
* `log` is a ghost history of what happened.
-/
namespace Verif.Sched

open Verif.Common

/-- `FiberPriority` (`/repo/util/fibers/detail/fiber_interface.h` 32-36). -/
inductive Prio
  | normal | background | high
deriving DecidableEq, Repr

/-- Where a fiber is in its life: not created, belonging to this scheduler, migrated to another
thread, terminated. -/
inductive Life
  | fresh | live | away | dead
deriving DecidableEq, Repr

/-- The call a fiber is suspended in. -/
inductive Pend
  | none
  /-- `FiberInterface::Suspend`. -/
  | plain
  /-- `Scheduler::WaitUntil` with this deadline. -/
  | timed (d : Nat)
deriving DecidableEq, Repr

/-- What happened. -/
inductive Ev
  /-- A fiber became ready, in the queue of the background fibers if `bg`; `front` if it was put at the
  front of its queue. -/
  | ready (f : Nat) (bg front : Bool)
  /-- The thread switched to a fiber. -/
  | run (f : Nat)
  /-- A fiber called `WaitUntil` with a deadline. -/
  | wait (f d : Nat)
  /-- The timer of a fiber went off at this time. -/
  | fired (f now : Nat)
  /-- A fiber's waker called `ActivateOther`, from another thread if `remote`. -/
  | notify (f : Nat) (remote : Bool)
  /-- `WaitUntil` returned this value. -/
  | ret (f : Nat) (timedOut : Bool)
deriving DecidableEq, Repr

/-- `Scheduler` (scheduler.h 183-211), the fields of its fibers, and ghosts. -/
structure St where
  /-- The steady clock. -/
  now : Nat
  /-- `time_point::max()`. -/
  T : Nat
  /-- `FiberInterface::prio_`. -/
  prio : Nat → Prio
  /-- `ready_queue_[0]`, shared by `NORMAL` and `HIGH`. -/
  rn : List Nat
  /-- `ready_queue_[1]`, of `BACKGROUND`. -/
  rb : List Nat
  /-- `sleep_queue_`, in the order of the multiset. -/
  sl : List Nat
  /-- `FiberInterface::tp_`. -/
  tp : Nat → Nat
  /-- The active fiber. -/
  act : Nat
  /-- `terminate_queue_`. -/
  term : List Nat
  /-- `remote_ready_queue_`. -/
  remote : List Nat
  life : Nat → Life
  pend : Nat → Pend
  /-- The fiber is registered with a waker that has not called yet. -/
  reg : Nat → Bool
  bad : Bool
  crash : Bool
  log : List Ev

/-- A scheduler just constructed (scheduler.cc 158-166): the main fiber runs, the dispatcher is in the
ready queue. -/
def init (s : St) : Prop :=
  s.now < s.T ∧ s.prio 0 = .normal ∧ s.prio 1 = .normal ∧ s.rn = [0] ∧ s.rb = [] ∧ s.sl = [] ∧
  s.act = 1 ∧ s.term = [] ∧ s.remote = [] ∧
  (∀ f, s.life f = if f = 0 ∨ f = 1 then .live else .fresh) ∧ (∀ f, s.pend f = .none) ∧
  (∀ f, s.reg f = false) ∧ s.bad = false ∧ s.crash = false ∧ s.log = [.ready 0 false false]

/-- `list_hook.is_linked()`: the ready queues and the terminate queue share the hook. -/
def linked (s : St) (f : Nat) : Bool := s.rn.contains f || s.rb.contains f || s.term.contains f

/-- Insertion into the multiset ordered by `tp_` (boost's `insert` puts an equal key last). -/
def insSleep (tp : Nat → Nat) (f : Nat) : List Nat → List Nat
  | [] => [f]
  | g :: l => if tp f < tp g then f :: g :: l else g :: insSleep tp f l

/-- Push onto the ready queue of the fiber's priority (`GetQueueIndex`, scheduler.h 137-139). -/
def push (s : St) (f : Nat) (front : Bool) : St :=
  match s.prio f with
  | .background => { s with rb := if front then f :: s.rb else s.rb ++ [f] }
  | _ => { s with rn := if front then f :: s.rn else s.rn ++ [f] }

/-- `Scheduler::AddReady` (scheduler.cc 268-287). -/
def addReady (s : St) (f : Nat) (front : Bool) : St :=
  let s1 := push { s with bad := s.bad || linked s f } f front
  { s1 with sl := s1.sl.erase f, log := s1.log ++ [.ready f (s.prio f == .background) front] }

/-- The `to_front` argument that `ActivateOther`, `Start` and `ProcessRemoteReady` pass. -/
def toFront (s : St) (f : Nat) : Bool := s.prio f == .high

/-- `FiberInterface::SwitchTo` (fiber_interface.cc 432-456). Resuming the running fiber is undefined:
its `entry_` is empty. -/
def switchTo (s : St) (f : Nat) : St :=
  { s with bad := s.bad || s.act == f, act := f, log := s.log ++ [.run f] }

/-- The end of `Preempt` for fibers of the normal queue (scheduler.cc 261-265): the front of an empty
list is undefined. -/
def switchNext (s : St) : St :=
  match s.rn with
  | [] => { s with bad := true }
  | f :: l => switchTo { s with rn := l } f

/-- The switch away from the active fiber in `Preempt(false)` (scheduler.cc 203-266): background fibers
return to the dispatcher. -/
def preempt (s : St) : St :=
  match s.prio s.act with
  | .background => switchTo s 0
  | _ => switchNext s

/-- `ActivateOther` on a fiber of this thread (fiber_interface.cc 402-411), and the same code at the
end of the loop of `ProcessRemoteReady` (scheduler.cc 442-445). -/
def wake (s : St) (f : Nat) : St := if linked s f then s else addReady s f (toFront s f)

/-- One round of the loop of `ProcessRemoteReady(active)` (scheduler.cc 411-445). -/
def pull1 (active : Option Nat) (s : St) (f : Nat) : St :=
  let s := { s with remote := s.remote.erase f }
  if active = some f then s else wake s f

/-- `Scheduler::ProcessRemoteReady` (scheduler.cc 384-449). -/
def processRemote (active : Option Nat) (s : St) : St := s.remote.foldl (pull1 active) s

/-- One round of the loop of `ProcessSleep` (scheduler.cc 458-470). -/
def fire1 (s : St) (f : Nat) : St :=
  let s1 := push { s with
    bad := s.bad || linked s f, sl := s.sl.erase f, tp := upd s.tp f s.T } f false
  { s1 with log := s1.log ++ [.fired f s.now, .ready f (s.prio f == .background) false] }

/-- The fibers whose time has come, in the order of the sleep queue. -/
def due (s : St) : List Nat := s.sl.takeWhile (fun f => decide (s.tp f ≤ s.now))

/-- `Scheduler::ProcessSleep` (scheduler.cc 451-474). -/
def processSleep (s : St) : St := (due s).foldl fire1 s

/-- The moves. The ones of the running fiber come first, then the dispatcher's, then the others. -/
inductive Act
  /-- `Yield` of a fiber of the normal queue; of a background fiber that exhausted its budget. -/
  | yield
  /-- `Yield` of a background fiber within its budget. -/
  | yieldKeep
  /-- `Yield` of a background fiber that is put to sleep until this time. -/
  | yieldSleep (t : Nat)
  | suspend
  | waitUntil (d : Nat)
  /-- Back from `Suspend` or `WaitUntil`. -/
  | finish
  | terminate
  /-- `ProactorBase::Migrate` to another thread. -/
  | migrate
  /-- Start a new fiber, with `Launch::post`. -/
  | post (f : Nat) (p : Prio)
  /-- Start a new fiber, with `Launch::dispatch`. -/
  | dispatch (f : Nat) (p : Prio)
  /-- `ActivateOther` on a fiber of this thread. -/
  | notify (f : Nat)
  /-- Moves of the dispatcher. -/
  | remoteReady
  | sleepers
  | runNormal
  | runBackground
  | destroy
  /-- A fiber migrates to this thread: `AttachScheduler` (fiber_interface.cc 425-430). -/
  | attach (f : Nat) (p : Prio)
  /-- `ActivateOther` from another thread. -/
  | notifyRemote (f : Nat)
  | tick (t : Nat)

/-- The running fiber is a worker or the main fiber, and not inside a blocking call. -/
def user (s : St) : Bool := s.act != 0 && s.pend s.act == .none

/-- A new fiber (`Attach`, scheduler.cc 327-336). -/
def create (s : St) (f : Nat) (p : Prio) : St :=
  { s with life := upd s.life f .live, prio := upd s.prio f p }

/-- The moves of a fiber other than the dispatcher. -/
def stepUser (s : St) : Act → Option St
  /- Preempt(true), scheduler.cc 226-266. -/
  | .yield => if user s then some (preempt (addReady s s.act false)) else none
  /- Lines 229-230. -/
  | .yieldKeep => if user s && s.prio s.act == .background then some s else none
  /- Lines 249-251, 258. -/
  | .yieldSleep t =>
    if user s && s.prio s.act == .background then
      let tp := upd s.tp s.act t
      some (preempt { s with tp := tp, sl := insSleep tp s.act s.sl })
    else none
  | .suspend =>
    if user s then
      some (preempt { s with pend := upd s.pend s.act .plain, reg := upd s.reg s.act true })
    else none
  /- WaitUntil, scheduler.cc 370-376. -/
  | .waitUntil d =>
    if user s && decide (d ≤ s.T) then
      let tp := upd s.tp s.act d
      some (preempt { s with
        pend := upd s.pend s.act (.timed d), reg := upd s.reg s.act true, tp := tp,
        sl := insSleep tp s.act s.sl, log := s.log ++ [.wait s.act d] })
    else none
  /- WaitUntil, scheduler.cc 377-381, then synchronization.cc 31-47 and
  PullMyselfFromRemoteReadyQueue (fiber_interface.cc 488-501). -/
  | .finish =>
    if s.act != 0 && s.pend s.act != .none then
      let l := match s.pend s.act with
        | .timed _ => [Ev.ret s.act (s.tp s.act == s.T)]
        | _ => []
      let s1 := if s.remote.contains s.act then processRemote (some s.act) s else s
      some { s1 with
        pend := upd s1.pend s1.act .none, reg := upd s1.reg s1.act false, log := s1.log ++ l }
    else none
  /- FiberInterface::Terminate (fiber_interface.cc 233-260), ScheduleTermination. -/
  | .terminate =>
    if user s && s.act != 1 then
      some (preempt { s with
        bad := s.bad || linked s s.act, term := s.term ++ [s.act], life := upd s.life s.act .dead })
    else none
  /- ProactorBase::Migrate (proactor_base.cc 282-298), SuspendAndExecuteOnDispatcher
  (scheduler.cc 488-501). -/
  | .migrate =>
    if user s && s.act != 1 then
      if linked s 0 then
        some (switchTo { s with rn := s.rn.erase 0, life := upd s.life s.act .away } 0)
      else some { s with crash := true }
    else none
  | _ => none

/-- The moves of the dispatcher, and of other threads. -/
def stepDisp (s : St) : Act → Option St
  | .remoteReady => if s.act = 0 then some (processRemote none s) else none
  | .sleepers => if s.act = 0 ∧ s.sl ≠ [] then some (processSleep s) else none
  /- RunReadyFibersInternal, scheduler.cc 600-612. -/
  | .runNormal =>
    if s.act = 0 then
      match s.rn with
      | [] => none
      | f :: l => some (switchTo (addReady { s with rn := l } 0 false) f)
    else none
  | .runBackground =>
    if s.act = 0 then
      match s.rb with
      | [] => none
      | f :: l => some (switchTo { s with rb := l } f)
    else none
  /- DestroyTerminated, scheduler.cc 352-368. -/
  | .destroy => if s.act = 0 then some { s with term := [] } else none
  | .attach f p =>
    if s.act = 0 ∧ (s.life f = .away ∨ s.life f = .fresh) ∧ (s.life f = .away → s.prio f = p) then
      some (addReady (create s f p) f false)
    else none
  /- ScheduleFromRemote, scheduler.cc 290-325. -/
  | .notifyRemote f =>
    if s.reg f then
      some { s with reg := upd s.reg f false, remote := s.remote ++ [f],
                    log := s.log ++ [.notify f true] }
    else none
  | .tick t => if s.now ≤ t ∧ t < s.T then some { s with now := t } else none
  | _ => none

/-- Moves that the dispatcher (in a callback) and the other fibers can both make. -/
def stepBoth (s : St) : Act → Option St
  /- FiberInterface::Start, fiber_interface.cc 345-363. -/
  | .post f p =>
    if (user s ∨ s.act = 0) ∧ s.life f = .fresh then
      let s1 := create s f p
      some (addReady s1 f (toFront s1 f))
    else none
  | .dispatch f p =>
    if (user s ∨ s.act = 0) ∧ s.life f = .fresh then
      let s1 := create s f p
      some (switchTo (addReady s1 s1.act false) f)
    else none
  /- ActivateOther; the waker is not the fiber itself. -/
  | .notify f =>
    if (user s ∨ s.act = 0) ∧ s.reg f then
      some (wake { s with reg := upd s.reg f false, log := s.log ++ [.notify f false] } f)
    else none
  | _ => none

/-- One move; undefined behaviour and failed checks stop the thread. -/
def step (s : St) (a : Act) : Option St :=
  if s.bad || s.crash then none
  else
    match a with
    | .post .. | .dispatch .. | .notify .. => stepBoth s a
    | .remoteReady | .sleepers | .runNormal | .runBackground | .destroy | .attach .. | .notifyRemote ..
    | .tick .. => stepDisp s a
    | _ => stepUser s a

/-- `Launch::dispatch` only between fibers of the same ready queue, and no `Migrate` by a background
fiber. -/
def Allowed (s : St) : Act → Prop
  | .dispatch _ p => (p = .background ↔ s.prio s.act = .background)
  | .migrate => s.prio s.act ≠ .background
  | _ => True

/-- Executions in which every move is allowed. -/
inductive ReachA : St → Prop
  | init {s} : init s → ReachA s
  | step {s a s'} : ReachA s → Allowed s a → step s a = some s' → ReachA s'

end Verif.Sched
