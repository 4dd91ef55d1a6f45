import Verif.Common.TS
/-!
# Model of the bookkeeping of fibers in schedulers (util/fibers/detail/scheduler.cc 155-201, 327-368, fiber_interface.cc 286-291, 349-351, 421-431)

Any number of schedulers, one per thread. `wk` says which fibers are workers (the main fiber and the dispatcher are not) and `sz` is
`stack_size()`. Counters are integers: that they never go below zero is proved, that 2^32 fibers are not reached is assumed.
`loc` and `born` record the life of each fiber: a fiber is attached once when it starts, migrates or terminates only while it is on a
scheduler, and only workers do so (`DetachWorker` does not check this, nor does `ProactorBase::Migrate`).
-/
namespace Verif.SchedCount
open Verif.Common

/-- Where a fiber is: not started, on a thread, between two threads, finished on a thread, released. -/
inductive Loc where
  | fresh | on (t : Nat) | moving | done (t : Nat) | gone
deriving DecidableEq

structure S where
  /-- `fibers_` -/
  list : Nat → List Nat
  /-- `terminate_queue_` -/
  term : Nat → List Nat
  /-- `num_worker_fibers_` -/
  num : Nat → Int
  /-- `worker_stack_size_` -/
  size : Nat → Int
  loc : Nat → Loc
  born : List Nat
  /-- an element was taken out of a list it is not in -/
  ub : Bool

def init : S := ⟨fun _ => [], fun _ => [], fun _ => 0, fun _ => 0, fun _ => .fresh, [], false⟩

/-- `Attach` (327-336). -/
def attach (wk : Nat → Bool) (sz : Nat → Nat) (t f : Nat) (s : S) : S :=
  let s := { s with list := upd s.list t (s.list t ++ [f]), loc := upd s.loc f (.on t) }
  if wk f then { s with size := upd s.size t (s.size t + sz f), num := upd s.num t (s.num t + 1) } else s

/-- `fibers_.erase(fibers_.iterator_to(f))`. -/
def erase (t f : Nat) (s : S) : S :=
  if f ∈ s.list t then { s with list := upd s.list t ((s.list t).erase f) } else { s with ub := true }

/-- `DetachWorker` (338-342). -/
def detach (sz : Nat → Nat) (t f : Nat) (s : S) : S :=
  let s := erase t f s
  { s with num := upd s.num t (s.num t - 1), size := upd s.size t (s.size t - sz f), loc := upd s.loc f .moving }

/-- `ScheduleTermination` (344-350). -/
def terminate (wk : Nat → Bool) (sz : Nat → Nat) (t f : Nat) (s : S) : S :=
  let s := { s with term := upd s.term t (s.term t ++ [f]), loc := upd s.loc f (.done t) }
  if wk f then { s with num := upd s.num t (s.num t - 1), size := upd s.size t (s.size t - sz f) } else s

/-- One round of `DestroyTerminated` (354-363). -/
def destroyOne (t : Nat) (s : S) : Option S :=
  match s.term t with
  | [] => none
  | f :: r =>
    let s := erase t f { s with term := upd s.term t r }
    some { s with loc := upd s.loc f .gone }

inductive Act where
  /-- the constructor of `Fiber`, or of the scheduler for its main fiber and its dispatcher -/
  | start (t f : Nat)
  /-- the two halves of `Migrate` -/
  | leave (f : Nat)
  | arrive (t f : Nat)
  | finish (f : Nat)
  | destroy (t : Nat)

def step (wk : Nat → Bool) (sz : Nat → Nat) (s : S) : Act → Option S
  | .start t f => match s.loc f with
    | .fresh => some { attach wk sz t f s with born := f :: s.born }
    | _ => none
  | .leave f => match s.loc f with
    | .on t => if wk f then some (detach sz t f s) else none
    | _ => none
  | .arrive t f => match s.loc f with
    | .moving => some (attach wk sz t f s)
    | _ => none
  | .finish f => match s.loc f with
    | .on t => if wk f then some (terminate wk sz t f s) else none
    | _ => none
  | .destroy t => destroyOne t s

/-- The check in `~Scheduler` (190-193). -/
def fatal (s : S) (t : Nat) : Bool := s.num t ≠ 0

end Verif.SchedCount
