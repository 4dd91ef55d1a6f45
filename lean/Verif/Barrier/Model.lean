import Verif.Sync.Model
/-!
# `Barrier`

Model of `util::fb2::Barrier` (util/fibers/synchronization.h 500-516, synchronization.cc 177-206): a client program of the
mutex and condition variable of `Verif.Sync`. Each fiber calls `Wait` and `Cancel` in any order, any number of times.
-/
namespace Verif.Barrier
open Verif.Sync

/-- `numeric_limits<size_t>::max()` on a 64-bit platform. -/
abbrev maxSize : Nat := 2 ^ 64 - 1

/-- Shared data: `initial_`, `current_`, `cycle_`; and two ghosts that the code does not have: the number of arrivals
(`Wait` calls that have entered) so far, and whether `Cancel` has taken effect. -/
structure G where
  initial : Nat
  cur : Nat
  cyc : Nat := 0
  arrived : Nat := 0
  canceled : Bool := false
deriving DecidableEq

/-- Local state of a fiber. `c` is the local variable `cycle` of `Wait`; `i` is a ghost, the number of this arrival. -/
inductive L
  | idle
  /-- `unique_lock lk{mtx_}` (synchronization.cc 182) -/
  | wLock
  /-- 183-186: read `cycle_`, decrement `current_`; if zero start a new cycle -/
  | wBody
  /-- 187: `cond_.notify_all()` -/
  | wNtf (i : Nat)
  /-- 191-192: evaluate the predicate of `cond_.wait` -/
  | wChk (c i : Nat)
  /-- inside `cond_.wait` -/
  | wWait (c i : Nat)
  /-- about to unlock and return `b` (188, 193) -/
  | wUnl (b : Bool) (i : Nat)
  /-- `Cancel`: `lock_guard lg{mtx_}` (198) -/
  | xLock
  /-- 199 -/
  | xSet
  /-- 200 -/
  | xUnl
  /-- 201: `cond_.notify_all()`, the mutex already released -/
  | xNtf
deriving DecidableEq

/-- Local steps. A fiber that is idle may call `Wait` (`true`) or `Cancel` (`false`). -/
def loc (g : G) (l : L) (_ : Nat) (c : Bool) : Option (G × L) :=
  match l with
  | .idle => some (g, if c then .wLock else .xLock)
  | .wBody =>
    -- `0 == --current_`, on an unsigned 64-bit number
    let cur := (g.cur + maxSize) % (maxSize + 1)
    if cur = 0 then
      some ({ g with cyc := (g.cyc + 1) % (maxSize + 1), cur := g.initial, arrived := g.arrived + 1 }, .wNtf g.arrived)
    else
      some ({ g with cur := cur, arrived := g.arrived + 1 }, .wChk g.cyc g.arrived)
  | .wChk c i => some (g, if c ≠ g.cyc ∨ g.cyc = maxSize then .wUnl false i else .wWait c i)
  | .xSet => some ({ g with cyc := maxSize, canceled := true }, .xUnl)
  | _ => none

def call : L → Call
  | .idle | .wBody | .wChk _ _ | .xSet => .loc
  | .wLock | .xLock => .lock
  | .wNtf _ | .xNtf => .notify true
  | .wWait _ _ => .wait false
  | .wUnl _ _ | .xUnl => .unlock

def ret : L → Bool → L
  | .wLock, _ => .wBody
  | .wNtf i, _ => .wUnl true i
  | .wWait c i, _ => .wChk c i
  | .wUnl _ _, _ => .idle
  | .xLock, _ => .xSet
  | .xUnl, _ => .xNtf
  | .xNtf, _ => .idle
  | l, _ => l

/-- Fibers using one barrier. -/
def barrier : Client G L Bool where
  call := call
  loc := loc
  ret := ret

/-- `Barrier(initial)` (177-179; `DCHECK_NE(0u, initial)`). -/
def New (g : G) : Prop := 0 < g.initial ∧ g.initial ≤ maxSize ∧ g = { initial := g.initial, cur := g.initial }

/-- Every execution of any number of fibers on a new barrier, through states satisfying `Q`. -/
abbrev BReach (Q : State G L → Prop) : State G L → Prop := Common.Reach (Init New (fun l => l = .idle)) (step barrier) Q

end Verif.Barrier
