import Verif.Common.TS
/-!
`util::fb2::FiberQueueThreadPool` (util/fibers/fiberqueue_threadpool.h 133-226, .cc 69-112) and the parts of `FiberQueue` it
runs on (.h 43-80, .cc 22-67).

Simplifications. The queue of a worker is a bounded list and one enqueue or dequeue is one step (C06, C27 model it access by
access). An event count is an epoch: a notification advances it and a fiber sleeps while the epoch is the one it has seen
(C18 shows that the event count does that for waiters that are registered). Counters do not wrap. A task is a number, given out
in the order of the calls; running it takes one step of its worker. The pool is destroyed only when no call of `Add` is
active and is not called after that, as the comment of `Add` (.h 55) asks.
-/
namespace Verif.FQPool
open Verif.Common

/-- Where a worker is in `FiberQueue::Run` (.cc 22-62): `cb` of the first check and in the loop of `await` (with the epoch
of `pull_ec_`), asleep, collecting a batch, before `push_ec_.notifyAll()`, running the batch, returned. -/
inductive WPc
  | try0
  | cls0
  | prep
  | try1 (e : Nat)
  | cls1 (e : Nat)
  | sleep (e : Nat)
  | more (ts : List Nat)
  | ntf (ts : List Nat)
  | exec (ts : List Nat)
  | gone
deriving DecidableEq, Repr

/-- A worker and its queue (.h 118-128, 217-220). -/
structure W where
  q : List Nat
  closed : Bool
  /-- epochs of `push_ec_` and `pull_ec_` -/
  pushE : Nat
  pullE : Nat
  pc : WPc
deriving DecidableEq, Repr

/-- A call: `Add` to any worker, starting at `start`, or `Add` to worker `w`. -/
inductive Kind
  | any (start : Nat)
  | pin (w : Nat)
deriving DecidableEq, Repr

/-- The worker whose `push_ec_` the caller waits on. -/
def Kind.main : Kind → Nat
  | .any w => w
  | .pin w => w

/-- Where a caller with task `x` is. `aw` says that it is in `Await`. -/
inductive CPc
  | idle
  /-- before `prepareWait` -/
  | prep (k : Kind) (x : Nat) (aw : Bool)
  /-- the workers in `rest` are tried next; `e` is the epoch of `prepareWait`, `none` in the fast path of `FiberQueue::Add` -/
  | try_ (k : Kind) (rest : List Nat) (x : Nat) (e : Option Nat) (aw : Bool)
  /-- enqueued, before `pull_ec_.notify()` of worker `w` -/
  | ntf (w : Nat) (x : Nat) (aw : Bool)
  | sleep (k : Kind) (x : Nat) (e : Nat) (aw : Bool)
  /-- `done.Wait()` -/
  | await (x : Nat)
deriving DecidableEq, Repr

/-- `Shutdown` (.cc 91-106): closing worker `k`, notifying it, joining worker `k`. -/
inductive Phase
  | opn
  | close (k : Nat)
  | ntf (k : Nat)
  | join (k : Nat)
  | down
deriving DecidableEq, Repr

structure S where
  cap : Nat
  ws : List W
  cs : List CPc
  /-- `next_index_` -/
  next : Nat
  /-- number of calls so far -/
  cnt : Nat
  phase : Phase
  /-- which task was enqueued at which worker, and which was run by which, in order -/
  acc : List (Nat × Nat)
  ran : List (Nat × Nat)

inductive Act
  /-- caller `c` calls `Add` or `Await`, with or without a worker index -/
  | add (c : Nat) (aw : Bool)
  | addTo (c : Nat) (i : Nat) (aw : Bool)
  /-- caller `c` or worker `w` goes on -/
  | caller (c : Nat)
  | worker (w : Nat)
  /-- `Shutdown` is called, and goes on -/
  | shutdown
  | sd
deriving DecidableEq, Repr

def S.setW (s : S) (k : Nat) (w : W) : S := { s with ws := s.ws.set k w }
def S.setC (s : S) (k : Nat) (c : CPc) : S := { s with cs := s.cs.set k c }

/-- `wrapped_idx` (.h 201-203). -/
def wrapped (n i : Nat) : Nat := if i < n then i else i - n

/-- The workers in the order in which `AddAnyWorker` (.h 205-213) tries them. -/
def rotation (n start : Nat) : List Nat := (List.range n).map fun i => wrapped n (start + i)

/-- The workers a call tries after `prepareWait`. -/
def Kind.list (n : Nat) : Kind → List Nat
  | .any start => rotation n start
  | .pin w => [w]

/-- `Add(f)` (.h 167-169), also from `Await` (.h 139-151). -/
def S.add (s : S) (c : Nat) (aw : Bool) : Option S :=
  if s.phase ≠ .opn ∨ s.cs[c]? ≠ some .idle then none
  else some { s.setC c (.prep (.any (s.next % s.ws.length)) s.cnt aw) with next := s.next + 1, cnt := s.cnt + 1 }

/-- `Add(index, f)` (.h 190-192), then the first line of `FiberQueue::Add` (.h 62), also from `Await` (.h 153-165). -/
def S.addTo (s : S) (c i : Nat) (aw : Bool) : Option S :=
  if s.phase ≠ .opn ∨ s.cs[c]? ≠ some .idle then none
  else some { s.setC c (.try_ (.pin (i % s.ws.length)) [i % s.ws.length] s.cnt none aw) with cnt := s.cnt + 1 }

/-- A caller after its notification. -/
def added (x : Nat) (aw : Bool) : CPc := if aw then .await x else .idle

/-- One step of a caller: `Add` (.h 170-179), `FiberQueue::Add` (.h 67-78), `TryAdd` (.h 43-52), `Await`. -/
def S.caller (s : S) (c : Nat) : Option S :=
  match s.cs[c]? with
  | none => none
  | some .idle => none
  | some (.prep k x aw) =>
    match s.ws[k.main]? with
    | none => none
    | some w => some (s.setC c (.try_ k (k.list s.ws.length) x (some w.pushE) aw))
  | some (.try_ _ [] _ _ _) => none
  | some (.try_ k (i :: rest) x e aw) =>
    match s.ws[i]? with
    | none => none
    | some w =>
      if w.q.length < s.cap then
        some { (s.setW i { w with q := w.q ++ [x] }).setC c (.ntf i x aw) with acc := s.acc ++ [(x, i)] }
      else
        match rest, e with
        | _ :: _, _ => some (s.setC c (.try_ k rest x e aw))
        | [], some e => some (s.setC c (.sleep k x e aw))
        | [], none => some (s.setC c (.prep k x aw))
  | some (.ntf i x aw) =>
    match s.ws[i]? with
    | none => none
    | some w => some ((s.setW i { w with pullE := w.pullE + 1 }).setC c (added x aw))
  | some (.sleep k x e aw) =>
    match s.ws[k.main]? with
    | none => none
    | some w => if w.pushE = e then none else some (s.setC c (.prep k x aw))
  | some (.await x) => if x ∈ s.ran.map Prod.fst then some (s.setC c .idle) else none

/-- `kBatchSize` (.cc 23). -/
def batchSize : Nat := 16

/-- One step of a worker (.cc 29-58). -/
def S.worker (s : S) (k : Nat) : Option S :=
  match s.ws[k]? with
  | none => none
  | some w =>
    match w.pc with
    | .try0 => match w.q with
      | x :: q => some (s.setW k { w with q := q, pc := .more [x] })
      | [] => some (s.setW k { w with pc := .cls0 })
    | .cls0 => some (s.setW k { w with pc := if w.closed then .gone else .prep })
    | .prep => some (s.setW k { w with pc := .try1 w.pullE })
    | .try1 e => match w.q with
      | x :: q => some (s.setW k { w with q := q, pc := .more [x] })
      | [] => some (s.setW k { w with pc := .cls1 e })
    | .cls1 e => some (s.setW k { w with pc := if w.closed then .gone else .sleep e })
    | .sleep e => if w.pullE = e then none else some (s.setW k { w with pc := .prep })
    | .more ts => match w.q with
      | x :: q => if ts.length < batchSize then some (s.setW k { w with q := q, pc := .more (ts ++ [x]) })
        else some (s.setW k { w with pc := .ntf ts })
      | [] => some (s.setW k { w with pc := .ntf ts })
    | .ntf ts => some (s.setW k { w with pushE := w.pushE + 1, pc := .exec ts })
    | .exec (x :: ts) => some { s.setW k { w with pc := .exec ts } with ran := s.ran ++ [(x, k)] }
    | .exec [] => some (s.setW k { w with pc := .try0 })
    | .gone => none

/-- A caller is not inside `Add`. -/
def CPc.out : CPc → Bool
  | .idle => true
  | .await _ => true
  | _ => false

/-- `Shutdown` (.cc 91-106), `FiberQueue::Shutdown` (.cc 64-67). -/
def S.sd (s : S) : Option S :=
  match s.phase with
  | .opn => none
  | .close k => match s.ws[k]? with
    | some w => some { s.setW k { w with closed := true } with phase := .ntf k }
    | none => some { s with phase := .join 0 }
  | .ntf k => match s.ws[k]? with
    | some w => some { s.setW k { w with pullE := w.pullE + 1 } with phase := .close (k + 1) }
    | none => none
  | .join k => match s.ws[k]? with
    | some w => if w.pc = .gone then some { s with phase := .join (k + 1) } else none
    | none => some { s with phase := .down }
  | .down => none

def step (s : S) : Act → Option S
  | .add c aw => s.add c aw
  | .addTo c i aw => s.addTo c i aw
  | .caller c => s.caller c
  | .worker k => s.worker k
  | .shutdown => if s.phase = .opn ∧ s.cs.all CPc.out then some { s with phase := .close 0 } else none
  | .sd => s.sd

/-- A new pool (.cc 69-83) with at least one worker and room for at least one task in each queue; callers are idle. -/
def S.new (n cap m : Nat) : S where
  cap := cap
  ws := List.replicate n ⟨[], false, 0, 0, .try0⟩
  cs := List.replicate m .idle
  next := 0
  cnt := 0
  phase := .opn
  acc := []
  ran := []

def Init (s : S) : Prop := ∃ n cap m, 0 < n ∧ 0 < cap ∧ s = S.new n cap m

end Verif.FQPool
