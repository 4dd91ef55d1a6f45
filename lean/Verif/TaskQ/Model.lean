import Verif.Common.TS
/-!
# Model of dispatching to a proactor whose queue may be full
(util/fibers/proactor_base.h 332-416, proactor_base.cc 282-298, epoll_proactor.cc 200-231, uring_proactor.cc 858-881)

Any number of proactors and of callers of `DispatchBrief`, which may be on any threads. Simplified: an enqueue or a dequeue of the bounded
queue is one step (C12 and C91 are about the queue itself); `notifyAll` is one step, and so is `wait`, which sleeps if there was no
notification since `prepareWait` (C19, C97); the wake-up of a proactor that sleeps in the kernel is C29. A call is named by the number of its
task, which is fresh.
-/
namespace Verif.TaskQ

/-- Who holds a task that is not in a queue yet, and where it was put. History only. -/
inductive Stat where
  | unborn
  | caller (i : Nat)
  | local (p : Nat)
  | moving (p : Nat)
  | accepted (p : Nat)
deriving DecidableEq

/-- Where a call of `DispatchBrief` is: before the first attempt (383), before `prepareWait` (391), before the next attempt (393), before `wait`
(396), in it, returned (with the result). -/
inductive Phase where
  | idle
  | first (p t : Nat)
  | prep (p t : Nat)
  | retry (p t e : Nat)
  | wait (p t e : Nat)
  | asleep (p t : Nat)
  | done (p t : Nat) (waited : Bool)
deriving DecidableEq

/-- A proactor. `q`: `task_queue_`. `running`: the loop has run a task since it last notified (between 862 and 880 of uring_proactor.cc).
`epoch`: notifications of `task_queue_avail_`. `loc`: the calls of `DispatchLocalBrief` that are executing on its thread, innermost first.
`spin`: its dispatcher is in the loop of `Migrate` (proactor_base.cc 292): destination and task. History: `ran`, tasks that were started;
`acc`, tasks that were accepted; both oldest first. -/
structure P where
  q : List Nat := []
  running : Bool := false
  epoch : Nat := 0
  loc : List Nat := []
  spin : Option (Nat × Nat) := none
  ran : List Nat := []
  acc : List Nat := []
deriving DecidableEq

structure S where
  ps : Nat → P := fun _ => {}
  th : Nat → Phase := fun _ => .idle
  stat : Nat → Stat := fun _ => .unborn

inductive Act where
  | call (i p t : Nat)
  | first (i : Nat)
  | prepare (i : Nat)
  | retry (i : Nat)
  | wait (i : Nat)
  | deq (p : Nat)
  | mid (p : Nat)
  | endBatch (p : Nat)
  | localCall (p t : Nat)
  | localTry (p : Nat)
  | migrate (p d t : Nat)
  | migTry (p : Nat)
deriving DecidableEq

def upd {α : Type} (f : Nat → α) (i : Nat) (v : α) : Nat → α := fun j => if j = i then v else f j

/-- `EmplaceTaskQueue` (332-339) where there is room. -/
def enqueue (s : S) (p t : Nat) : S :=
  { s with ps := upd s.ps p { s.ps p with q := (s.ps p).q ++ [t], acc := (s.ps p).acc ++ [t] }, stat := upd s.stat t (.accepted p) }

def setTh (s : S) (i : Nat) (v : Phase) : S := { s with th := upd s.th i v }

/-- What a notification does to a caller. -/
def woken (p : Nat) : Phase → Phase
  | .asleep p' t => if p' = p then .prep p t else .asleep p' t
  | x => x

/-- `task_queue_avail_.notifyAll()`. -/
def notifyAll (s : S) (p : Nat) : S :=
  { s with ps := upd s.ps p { s.ps p with epoch := (s.ps p).epoch + 1 }, th := fun i => woken p (s.th i) }

/-- A task is taken out of the queue and started. -/
def runHead (x : P) : P :=
  match x.q with
  | [] => x
  | t :: r => { x with q := r, ran := x.ran ++ [t] }

/-- Nothing else executes on the thread of the proactor than the loop. -/
def free (x : P) : Bool := x.loc.isEmpty && x.spin.isNone

def step (cap : Nat) (s : S) : Act → Option S
  | .call i p t =>
    match s.th i with
    | .idle | .done .. => if s.stat t = .unborn then some (setTh { s with stat := upd s.stat t (.caller i) } i (.first p t)) else none
    | _ => none
  | .first i =>
    match s.th i with
    | .first p t => some (if (s.ps p).q.length < cap then setTh (enqueue s p t) i (.done p t false) else setTh s i (.prep p t))
    | _ => none
  | .prepare i =>
    match s.th i with
    | .prep p t => some (setTh s i (.retry p t (s.ps p).epoch))
    | _ => none
  | .retry i =>
    match s.th i with
    | .retry p t e => some (if (s.ps p).q.length < cap then setTh (enqueue s p t) i (.done p t true) else setTh s i (.wait p t e))
    | _ => none
  | .wait i =>
    match s.th i with
    | .wait p t e => some (setTh s i (if (s.ps p).epoch = e then .asleep p t else .prep p t))
    | _ => none
  -- try_dequeue and task() in the loops: epoll_proactor.cc 204-223, uring_proactor.cc 862-873.
  | .deq p =>
    if free (s.ps p) && !(s.ps p).q.isEmpty then
      some { s with ps := upd s.ps p { runHead (s.ps p) with running := true } } else none
  -- epoll_proactor.cc 217-222.
  | .mid p => if free (s.ps p) && (s.ps p).running then some (notifyAll s p) else none
  -- The queue or the time is exhausted: epoll_proactor.cc 230, uring_proactor.cc 880.
  | .endBatch p =>
    if free (s.ps p) && (s.ps p).running then
      let s := notifyAll s p
      some { s with ps := upd s.ps p { s.ps p with running := false } } else none
  -- DispatchLocalBrief, by a fiber or a task of the proactor, or by a task that such a call runs.
  | .localCall p t =>
    if (s.ps p).spin.isNone && s.stat t = .unborn then
      some { s with ps := upd s.ps p { s.ps p with loc := t :: (s.ps p).loc }, stat := upd s.stat t (.local p) } else none
  -- One round of its loop (404-413).
  | .localTry p =>
    match (s.ps p).loc with
    | t :: r =>
      some (if (s.ps p).q.length < cap then enqueue { s with ps := upd s.ps p { s.ps p with loc := r } } p t
        else { s with ps := upd s.ps p (runHead (s.ps p)) })
    | [] => none
  -- Migrate: the dispatcher starts to hand the fiber over (proactor_base.cc 285-289). The batch of tasks is over.
  | .migrate p d t =>
    if free (s.ps p) && !(s.ps p).running && d != p && s.stat t = .unborn then
      some { s with ps := upd s.ps p { s.ps p with spin := some (d, t) }, stat := upd s.stat t (.moving p) } else none
  -- It succeeds where there is room (292); otherwise it tries again.
  | .migTry p =>
    match (s.ps p).spin with
    | some (d, t) =>
      if (s.ps d).q.length < cap then some (enqueue { s with ps := upd s.ps p { s.ps p with spin := none } } d t) else some s
    | none => none

end Verif.TaskQ
