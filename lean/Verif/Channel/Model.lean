import Verif.EventCount.Short
import Verif.EventCount.Client
import Verif.Channel.Queue
/-!
# Model of `util::fb2::SimpleChannel` (util/fibers/simple_channel.h)

A client of two event counts: number 0 is `push_ec_`, number 1 is `pop_ec_`. Any number of fibers run `Push`, `TryPush`,
`Pop`, `TryPop` and `StartClosing`, in any order. Simplifications: sequentially consistent atomics; the queue is that of
`Verif.Channel.Queue`; `is_closing_` does not wrap. `throttled_pushes_` is written and never read, so it is left out.
-/
namespace Verif.Channel
open Verif.Common Verif.EventCount

/-- Which attempt: the only one (`TryPush`, `TryPop`), the fast path of `Push` / `Pop` (94, 108), the one in the loop
(99, 113), or the last one of `Pop` (121). -/
inductive Mode
  | once | fast | slow | last
  deriving DecidableEq

/-- Shared state: the queue, `is_closing_`, `num_producers_` (84-87). Ghost fields: `got` lists the results of the
successful dequeues with their positions, in the order in which they ended; `empties` counts the failed ones. -/
structure G (α : Type) where
  q : Q α
  closing : Nat := 0
  np : Nat := 1
  got : List (Nat × α) := []
  empties : Nat := 0

/-- Control states of a fiber. -/
inductive Pc (α : Type)
  | idle
  | push (m : Mode) (x : α)                 -- before try_enqueue (56)
  | pub (m : Mode) (p : Nat) (x : α)        -- position claimed, not published
  | ntfPop (m : Mode)                       -- before pop_ec_.notify() (58)
  | pDrop                                   -- leaving the loop of Push: the Key's destructor
  | pPrep (x : α)                           -- before push_ec_.prepareWait() (98)
  | pWait (x : α) (k : Nat)                 -- before push_ec_.wait() (102); ghost `k` = `empties` at the failed attempt
  | pDropL (x : α)                          -- end of the loop body: the Key's destructor
  | pop (m : Mode)                          -- before try_dequeue (68)
  | rel (m : Mode) (p : Nat) (v : α)        -- position claimed, its cell not released
  | ntfPush (m : Mode) (h : Nat)            -- before push_ec_.notify() (71); `h` is the position found unreadable
  | qDrop (r : Option α)                    -- leaving the loop of Pop: the Key's destructor
  | qPrep                                   -- before pop_ec_.prepareWait() (112)
  | qChk (h : Nat)                          -- before IsClosing() (117)
  | qWait (h : Nat)                         -- before pop_ec_.wait() (124)
  | qDropL                                  -- end of the loop body: the Key's destructor
  | fin (r : Option α)                      -- Pop returned: `some v` = true, `none` = false
  | cNtf                                    -- before pop_ec_.notifyAll() (130)
  deriving DecidableEq

/-- The operation an idle fiber starts. -/
inductive Ch (α : Type)
  | push (x : α) | tryPush (x : α) | pop | tryPop | close

variable {α : Type}

/-- `IsClosing` (75-78). -/
def G.isClosing (g : G α) : Bool := g.np ≤ g.closing

/-- After a successful `TryPush`. -/
def pushDone : Mode → Pc α
  | .slow => .pDrop
  | _ => .idle

/-- After a failed attempt to push `x` (62, 99-102). -/
def pushFail (x : α) (k : Nat) : Mode → Pc α
  | .fast => .pPrep x
  | .slow => .pWait x k
  | _ => .idle

/-- After a successful attempt to pop (108-109, 113-115, 121). -/
def popDone (v : α) : Mode → Pc α
  | .fast => .fin (some v)
  | .slow => .qDrop (some v)
  | .last => .qDrop (some v)
  | .once => .idle

/-- After a failed attempt to pop (72, 108-124). -/
def popFail (h : Nat) : Mode → Pc α
  | .fast => .qPrep
  | .slow => .qChk h
  | .last => .qDrop none
  | .once => .idle

def cCall : Pc α → Call
  | .ntfPop _ => .notify 1 false
  | .pDrop => .drop
  | .pPrep _ => .prep 0
  | .pWait _ _ => .wait 0 false
  | .pDropL _ => .drop
  | .ntfPush _ _ => .notify 0 false
  | .qDrop _ => .drop
  | .qPrep => .prep 1
  | .qWait _ => .wait 1 false
  | .qDropL => .drop
  | .cNtf => .notify 1 true
  | _ => .loc

def cRet : Pc α → Pc α
  | .ntfPop m => pushDone m
  | .pDrop => .idle
  | .pPrep x => .push .slow x
  | .pWait x _ => .pDropL x
  | .pDropL x => .pPrep x
  | .ntfPush m h => popFail h m
  | .qDrop r => .fin r
  | .qPrep => .pop .slow
  | .qWait _ => .qDropL
  | .qDropL => .qPrep
  | .cNtf => .idle
  | l => l

def cLoc (g : G α) : Pc α → Ch α → Option (G α × Pc α)
  | .idle, .push x => some (g, .push .fast x)                                             -- 94
  | .idle, .tryPush x => some (g, .push .once x)
  | .idle, .pop => some (g, .pop .fast)                                                   -- 108
  | .idle, .tryPop => some (g, .pop .once)
  | .idle, .close => some ({ g with closing := g.closing + 1 }, .cNtf)                    -- 129
  | .push m x, _ => match g.q.claim x with                                                -- 56
    | some (q, p) => some ({ g with q }, .pub m p x)
    | none => some (g, pushFail x g.empties m)
  | .pub m p x, _ => some ({ g with q := g.q.publish p x }, .ntfPop m)
  | .pop m, _ => match g.q.take with                                                      -- 68
    | some (q, p, v) => some ({ g with q }, .rel m p v)
    | none => some ({ g with empties := g.empties + 1 }, .ntfPush m g.q.head)
  | .rel m p v, _ => some ({ g with q := g.q.release p, got := g.got ++ [(p, v)] }, popDone v m)
  | .qChk h, _ => if g.isClosing then some (g, .pop .last) else some (g, .qWait h)        -- 117
  | .fin _, _ => some (g, .idle)
  | _, _ => none

/-- The channel as a client of the event count machine. -/
def chan (α : Type) : Client (G α) (Pc α) (Ch α) where
  call := cCall
  loc g l _ c := cLoc g l c
  ret l _ := cRet l

/-- A new channel (37): an empty queue of capacity at least one, `np` producers, idle fibers. -/
def I0 (g : G α) : Prop := ∃ q np, q.Fresh ∧ g = { q, np }

abbrev CReach (α : Type) (R : State (G α) (Pc α) → Prop) : State (G α) (Pc α) → Prop :=
  Reach (Init I0 (fun l => l = .idle)) (step (chan α)) R

end Verif.Channel
