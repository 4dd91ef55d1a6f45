import Verif.EventCount.Short
import Verif.EventCount.Client
import Verif.Channel.Queue
/-!
# Model of `util::fb2::FiberQueue` (util/fibers/fiberqueue_threadpool.h 23-130, .cc 22-67)

A client of two event counts: number 0 is `push_ec_`, number 1 is `pull_ec_`. Any number of fibers call `TryAdd`, `Add` and
`Shutdown`; a fiber may call `Run`. Simplifications: sequentially consistent atomics; the queue is that of
`Verif.Channel.Queue`; a task is a value and running it records it. `blocked_submitters_` is only a statistic.
-/
namespace Verif.FiberQueue
open Verif.Common Verif.EventCount Verif.Channel

/-- Which attempt to enqueue: the only one (`TryAdd`), the fast path of `Add` (60), or the one in its loop (68). -/
inductive Mode
  | once | fast | slow
  deriving DecidableEq

/-- `kBatchSize` (.cc 23). -/
def batchSize : Nat := 16

/-- Shared state: the queue and `is_closed_`. Ghost: `ran`, the tasks executed so far, in order. -/
structure G (α : Type) where
  q : Q α
  closed : Bool := false
  ran : List α := []

/-- Control states of a fiber. `slow` tells the condition check inside the loop of `await` from the first one
(synchronization.h 413, 423); `ts` is `batch[0..count)`. -/
inductive Pc (α : Type)
  | idle
  | push (m : Mode) (x : α)                    -- before try_enqueue (45)
  | pub (m : Mode) (p : Nat) (x : α)           -- position claimed, not published
  | ntfPull (m : Mode)                         -- before pull_ec_.notify() (48)
  | pDrop                                      -- leaving the loop of Add: the Key's destructor
  | pPrep (x : α)                              -- before push_ec_.prepareWait() (66)
  | pWait (x : α)                              -- before push_ec_.wait() (74)
  | pDropL (x : α)                             -- end of the loop body: the Key's destructor
  | rTry (slow : Bool)                         -- cb: before try_dequeue_sc(batch[0]) (.cc 30)
  | rRel (slow : Bool) (p : Nat) (v : α)       -- position claimed, its cell not released
  | rCls (slow : Bool) (h : Nat)               -- cb: before is_closed_.load (.cc 34); position `h` was unreadable
  | rPrep                                      -- await: before pull_ec_.prepareWait()
  | rWait (h : Nat)                            -- await: before pull_ec_.wait()
  | rDropL                                     -- await: end of the loop body
  | rDrop (ts : List α)                        -- await: leaving the loop with a task
  | rDropC                                     -- await: leaving the loop because of is_closed
  | rMore (ts : List α)                        -- before the loop condition (.cc 48)
  | rRel2 (ts : List α) (p : Nat) (v : α)
  | rNtf (ts : List α)                         -- before push_ec_.notifyAll() (.cc 52)
  | rExec (ts : List α)                        -- the rest of the batch (.cc 54-56)
  | fin                                        -- Run returned
  | cNtf                                       -- Shutdown: before pull_ec_.notifyAll() (.cc 66)
  deriving DecidableEq

/-- The operation an idle fiber starts. -/
inductive Ch (α : Type)
  | add (x : α) | tryAdd (x : α) | run | shutdown

variable {α : Type}

/-- After a successful `TryAdd`. -/
def pushDone : Mode → Pc α
  | .slow => .pDrop
  | _ => .idle

/-- After a failed `TryAdd` (60, 68). -/
def pushFail (x : α) : Mode → Pc α
  | .fast => .pPrep x
  | .slow => .pWait x
  | .once => .idle

def cCall : Pc α → Call
  | .ntfPull _ => .notify 1 false
  | .pDrop => .drop
  | .pPrep _ => .prep 0
  | .pWait _ => .wait 0 false
  | .pDropL _ => .drop
  | .rPrep => .prep 1
  | .rWait _ => .wait 1 false
  | .rDropL => .drop
  | .rDrop _ => .drop
  | .rDropC => .drop
  | .rNtf _ => .notify 0 true
  | .cNtf => .notify 1 true
  | _ => .loc

def cRet : Pc α → Pc α
  | .ntfPull m => pushDone m
  | .pDrop => .idle
  | .pPrep x => .push .slow x
  | .pWait x => .pDropL x
  | .pDropL x => .pPrep x
  | .rPrep => .rTry true
  | .rWait _ => .rDropL
  | .rDropL => .rPrep
  | .rDrop ts => .rMore ts
  | .rDropC => .fin
  | .rNtf ts => .rExec ts
  | .cNtf => .idle
  | l => l

def cLoc (g : G α) : Pc α → Ch α → Option (G α × Pc α)
  | .idle, .add x => some (g, .push .fast x)                                              -- 60
  | .idle, .tryAdd x => some (g, .push .once x)
  | .idle, .run => some (g, .rTry false)                                                  -- .cc 43
  | .idle, .shutdown => some ({ g with closed := true }, .cNtf)                           -- .cc 65
  | .push m x, _ => match g.q.claim x with                                                -- 45
    | some (q, p) => some ({ g with q }, .pub m p x)
    | none => some (g, pushFail x m)
  | .pub m p x, _ => some ({ g with q := g.q.publish p x }, .ntfPull m)
  | .rTry s, _ => match g.q.take with                                                     -- .cc 30
    | some (q, p, v) => some ({ g with q }, .rRel s p v)
    | none => some (g, .rCls s g.q.head)
  | .rRel s p v, _ => some ({ g with q := g.q.release p }, if s then .rDrop [v] else .rMore [v])
  | .rCls s h, _ =>                                                                       -- .cc 34-38
    if g.closed then some (g, if s then .rDropC else .fin)
    else some (g, if s then .rWait h else .rPrep)
  | .rMore ts, _ =>                                                                       -- .cc 48-50
    if ts.length < batchSize then match g.q.take with
      | some (q, p, v) => some ({ g with q }, .rRel2 ts p v)
      | none => some (g, .rNtf ts)
    else some (g, .rNtf ts)
  | .rRel2 ts p v, _ => some ({ g with q := g.q.release p }, .rMore (ts ++ [v]))
  | .rExec (x :: ts), _ => some ({ g with ran := g.ran ++ [x] }, .rExec ts)               -- .cc 55
  | .rExec [], _ => some (g, .rTry false)                                                 -- .cc 57
  | .fin, _ => some (g, .idle)
  | _, _ => none

/-- The queue as a client of the event count machine. -/
def fq (α : Type) : Client (G α) (Pc α) (Ch α) where
  call := cCall
  loc g l _ c := cLoc g l c
  ret l _ := cRet l

/-- A new queue (.cc 19): capacity at least one, idle fibers. -/
def I0 (g : G α) : Prop := ∃ q, q.Fresh ∧ g = { q }

abbrev FReach (α : Type) (R : State (G α) (Pc α) → Prop) : State (G α) (Pc α) → Prop :=
  Reach (Init I0 (fun l => l = .idle)) (step (fq α)) R

end Verif.FiberQueue
