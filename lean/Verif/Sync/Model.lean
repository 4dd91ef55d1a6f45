import Verif.Common.TS
/-!
# Fiber `Mutex` and `CondVar`

Model of `util::fb2::Mutex` (util/fibers/synchronization.h 36-62, synchronization.cc 56-98) and of
`util::fb2::CondVarAny` / `CondVar` used with it (synchronization.h 64-210, 520-557, synchronization.cc
100-121), on top of the wait queue (util/fibers/detail/wait_queue.cc 28-79).

One mutex and one condition variable are shared by any number of fibers. Each fiber runs a *client*
program: an arbitrary automaton that performs local steps on shared data and calls the operations of
the mutex and of the condition variable. Every access to the mutex word, to its wait queue, to the
spin lock and to the condition variable's wait queue is a step of its own, so every interleaving of
fibers running on different threads is covered; interleavings on one thread are among them.

Suspending and waking (detail/fiber_interface.cc 399-419, detail/scheduler.cc 268-325, 384-449) is
abstracted to: a fiber that suspends stops until it is activated, and an activation that arrives
before the fiber has suspended is not lost (it sits in the ready queue or in the remote queue of the
fiber's thread until the fiber suspends). Persistent and callback waiters are not modelled: neither
class creates them.
-/
namespace Verif.Sync
open Verif.Common

/-- What a client program does next. -/
inductive Call
  /-- a step of its own -/
  | loc
  /-- `Mutex::lock()` -/
  | lock
  /-- `Mutex::try_lock()` -/
  | tryLock
  /-- `Mutex::unlock()` -/
  | unlock
  /-- `CondVar::wait(lt)`, or `wait_until(lt, tp)` if `timed` -/
  | wait (timed : Bool)
  /-- `CondVar::notify_all()`, or `notify_one()` -/
  | notify (all : Bool)
deriving DecidableEq, Repr

/-- A client program. `G` is the shared data, `L` the local state of a fiber, `C` the choices a local
step may make. `ret l b` is the local state after the call made in `l` returned `b`. -/
structure Client (G L C : Type) where
  call : L → Call
  loc : G → L → Nat → C → Option (G × L)
  ret : L → Bool → L

/-- Why the mutex is being locked: a call of `lock`, or the relocking at the end of `wait`
(`timed`, and whether the fiber was woken by the timer). -/
inductive LK
  | lock
  | wait (timed out : Bool)
deriving DecidableEq, Repr

/-- Why the mutex is being unlocked: a call of `unlock`, or from inside `wait`. -/
inductive UK
  | unlock
  | wait (timed : Bool)
deriving DecidableEq, Repr

/-- Program counter inside an operation. -/
inductive EPc
  /-- in client code -/
  | cl
  /-- `Mutex::lock`: about to take the spin lock (synchronization.cc 61) -/
  | lAcq (k : LK)
  /-- spin lock taken, about to look at `owner_` (62) -/
  | lCs (k : LK)
  /-- `owner_` set, about to release the spin lock and return (66-67) -/
  | lRelOk (k : LK)
  /-- waiter linked, about to release the spin lock (72) -/
  | lRelSlp (k : LK)
  /-- suspending (73) -/
  | lSleep (k : LK)
  /-- resumed; the waiter of this iteration is about to be destroyed (59-74) -/
  | lWoken (k : LK)
  /-- `Mutex::try_lock` (77-88) -/
  | tAcq
  | tCs
  | tRel (b : Bool)
  /-- `Mutex::unlock`: about to take the spin lock (93) -/
  | uAcq (k : UK)
  /-- about to check and clear `owner_` (94-95) -/
  | uCs (k : UK)
  /-- about to pop the first waiter (97, wait_queue.cc 34-55) -/
  | uNtf (k : UK)
  /-- about to activate the popped waiter (wait_queue.cc 57) -/
  | uAct (k : UK) (w : Nat)
  /-- about to release the spin lock (98) -/
  | uRel (k : UK)
  /-- `CondVarAny::wait`: suspending (synchronization.h 528, 548) -/
  | cSleep (timed : Bool)
  /-- resumed, about to relock (532, 551) -/
  | cWoken (timed out : Bool)
  /-- `PostWaitTimeout` (synchronization.cc 100-121), the mutex held again -/
  | post (out : Bool)
  /-- `notify_one` / `notify_all`: about to look at the queue -/
  | nGo (all any : Bool)
  /-- about to activate the fiber it popped -/
  | nAct (all : Bool) (w : Nat)
deriving DecidableEq, Repr

/-- Global state. Fibers are numbered; those below `n` exist. -/
structure State (G L : Type) where
  g : G
  n : Nat
  /-- `Mutex::owner_` -/
  owner : Option Nat := none
  /-- holder of `Mutex::wait_queue_splk_` -/
  spin : Option Nat := none
  /-- `Mutex::wait_queue_` -/
  mq : List Nat := []
  /-- `CondVarAny::wait_queue_` -/
  cq : List Nat := []
  cl : Nat → L
  ep : Nat → EPc := fun _ => .cl
  /-- an activation by the condition variable reached a fiber inside `wait` before it suspended -/
  ntf : Nat → Bool := fun _ => false
  /-- an activation reached a fiber that was not suspended and not about to suspend for it -/
  stale : Nat → Bool := fun _ => false
  /-- undefined behaviour or a failed CHECK has happened -/
  bad : Bool := false

variable {G L C : Type}

def State.setEp (s : State G L) (t : Nat) (e : EPc) : State G L := { s with ep := upd s.ep t e }

/-- The call made by fiber `t` returns `b`. -/
def State.retn (P : Client G L C) (s : State G L) (t : Nat) (b : Bool) : State G L :=
  { s with ep := upd s.ep t .cl, cl := upd s.cl t (P.ret (s.cl t) b) }

/-- `FiberInterface::ActivateOther(w)` (fiber_interface.cc 399-419). A suspended fiber becomes
runnable. A fiber inside `wait` that has not suspended yet will resume at once. In any other
state the activation stays pending (remote queue), and may later resume the fiber from an unrelated
suspension: `Act.stale`. -/
def State.activate (s : State G L) (w : Nat) : State G L :=
  match s.ep w with
  | .lSleep k => s.setEp w (.lWoken k)
  | .cSleep tm => s.setEp w (.cWoken tm false)
  | .uAcq (.wait _) | .uCs (.wait _) | .uNtf (.wait _) | .uAct (.wait _) _ | .uRel (.wait _) => { s with ntf := upd s.ntf w true }
  | _ => { s with stale := upd s.stale w true }

/-- Moves. -/
inductive Act (C : Type)
  /-- fiber `t` takes its next step, resolving local choices by `c` -/
  | go (t : Nat) (c : C)
  /-- the deadline of fiber `t`'s timed wait passes (scheduler.cc 451-474) -/
  | timer (t : Nat)
  /-- a pending activation of fiber `t` is delivered (scheduler.cc 384-449) -/
  | stale (t : Nat)

/-- The first step of an operation. -/
def stepCall (P : Client G L C) (s : State G L) (t : Nat) (c : C) : Option (State G L) :=
  match P.call (s.cl t) with
  | .loc => (P.loc s.g (s.cl t) t c).map fun r => { s with g := r.1, cl := upd s.cl t r.2 }
  | .lock => some (s.setEp t (.lAcq .lock))
  | .tryLock => some (s.setEp t .tAcq)
  | .unlock => some (s.setEp t (.uAcq .unlock))
  -- `wait_queue_.Link(&waiter)`, synchronization.h 525 and 544
  | .wait tm => some { s with cq := s.cq ++ [t], ntf := upd s.ntf t false, ep := upd s.ep t (.uAcq (.wait tm)) }
  | .notify all => some (s.setEp t (.nGo all false))

/-- A step inside an operation. -/
def stepEp (P : Client G L C) (s : State G L) (t : Nat) : EPc → Option (State G L)
  | .cl | .lSleep _ | .cSleep _ => none
  | .lAcq k => if s.spin = none then some { s with spin := some t, ep := upd s.ep t (.lCs k) } else none
  | .lCs k =>
    match s.owner with
    | none => some { s with owner := some t, ep := upd s.ep t (.lRelOk k) }
    -- `CHECK(active != owner_)`, then `Link`
    | some o => some { s with mq := s.mq ++ [t], ep := upd s.ep t (.lRelSlp k), bad := s.bad || decide (o = t) }
  | .lRelOk k =>
    match k with
    | .lock => some (State.retn P { s with spin := none } t true)
    | .wait false _ => some (State.retn P { s with spin := none } t true)
    | .wait true out => some { s with spin := none, ep := upd s.ep t (.post out) }
  | .lRelSlp k => some { s with spin := none, ep := upd s.ep t (.lSleep k) }
  -- destroying a waiter that is still linked leaves a dangling entry in the queue
  | .lWoken k => some { s with ep := upd s.ep t (.lAcq k), bad := s.bad || decide (t ∈ s.mq) }
  | .tAcq => if s.spin = none then some { s with spin := some t, ep := upd s.ep t .tCs } else none
  | .tCs =>
    match s.owner with
    | none => some { s with owner := some t, ep := upd s.ep t (.tRel true) }
    | some _ => some (s.setEp t (.tRel false))
  | .tRel b => some (State.retn P { s with spin := none } t b)
  | .uAcq k => if s.spin = none then some { s with spin := some t, ep := upd s.ep t (.uCs k) } else none
  -- `CHECK(owner_ == active)`
  | .uCs k => some { s with owner := none, ep := upd s.ep t (.uNtf k), bad := s.bad || decide (s.owner ≠ some t) }
  | .uNtf k =>
    match s.mq with
    | [] => some (s.setEp t (.uRel k))
    | w :: q => some { s with mq := q, ep := upd s.ep t (.uAct k w) }
  | .uAct k w => some ((s.activate w).setEp t (.uRel k))
  | .uRel k =>
    match k with
    | .unlock => some (State.retn P { s with spin := none } t true)
    | .wait tm =>
      if s.ntf t then some { s with spin := none, ntf := upd s.ntf t false, ep := upd s.ep t (.cWoken tm false) }
      else some { s with spin := none, ep := upd s.ep t (.cSleep tm) }
  | .cWoken tm out => some (s.setEp t (.lAcq (.wait tm out)))
  | .post out =>
    if t ∈ s.cq then
      -- `Unlink`, `CHECK(!active->IsScheduledRemotely())`
      some { State.retn P s t false with cq := s.cq.erase t, bad := s.bad || s.stale t }
    else
      -- `PullMyselfFromRemoteReadyQueue`
      some { State.retn P s t (!out) with stale := upd s.stale t false }
  | .nGo all any =>
    match s.cq with
    | [] => some (State.retn P s t any)
    | w :: q => some { s with cq := q, ep := upd s.ep t (.nAct all w) }
  | .nAct all w =>
    if all then some ((s.activate w).setEp t (.nGo true true)) else some (State.retn P (s.activate w) t true)

/-- One move. -/
def step (P : Client G L C) (s : State G L) : Act C → Option (State G L)
  | .go t c =>
    if t < s.n then
      if s.ep t = .cl then stepCall P s t c else stepEp P s t (s.ep t)
    else none
  | .timer t =>
    match s.ep t with
    | .cSleep true => some (s.setEp t (.cWoken true true))
    | _ => none
  | .stale t =>
    if s.stale t then
      match s.ep t with
      | .lSleep k => some { s with ep := upd s.ep t (.lWoken k), stale := upd s.stale t false }
      | _ => none
    else none

/-- Initial states: the mutex is free, the queues are empty, every fiber is in its client program. -/
def Init (I : G → Prop) (J : L → Prop) (s : State G L) : Prop :=
  I s.g ∧ (∀ t, J (s.cl t)) ∧ s = { g := s.g, n := s.n, cl := s.cl }

end Verif.Sync
