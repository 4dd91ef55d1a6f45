import Verif.Common.TS
/-!
Lifetime of one fiber: `FiberInterface::Join`, `Terminate` (util/fibers/detail/fiber_interface.cc 286-312, 369-397), the reference
count (`intrusive_ptr_add_ref` / `intrusive_ptr_release`, fiber_interface.h 171-196), `Scheduler::ScheduleTermination` and
`DestroyTerminated` (util/fibers/detail/scheduler.cc 344-368), `Fiber::Join`, `Detach` (util/fibers/fibers.cc 29-39).

One *target* fiber, and any number of other fibers, on any threads, named by numbers, that hold handles on it. Every step is one
atomic operation on the target's memory or one operation on it made under the `kBusyBit` lock. Simplifications: atomics are
sequentially consistent; bit `kScheduleRemote` of `flags_` is left out (it is set and cleared with read-modify-write operations
that keep the other bits); a wake-up of a joining fiber is a flag `wake`, set by `ActivateOther` and consumed when the fiber leaves
`Suspend` (no wake-up from an earlier timed wait is pending: compare C51); the target does not join itself (a `CHECK`); thread
names, tracing and stack checks are left out.
-/
namespace Verif.Join
open Verif.Common

/-- Where a fiber is in `Fiber::Join`: before the `fetch_or`; early return, about to drop the lock (374-378); about to link its
waiter (388-389); about to drop the lock (390); suspended (393); `impl_->Join()` has returned and the handle is about to be
released (fibers.cc 36-38). -/
inductive JPc
  | idle | try_ | rel | link | clr | susp | ret
  deriving DecidableEq, Repr

/-- Where the target is: running its function; function done, about to enter the terminate queue (scheduler.cc 344-350); in the
`fetch_or` loop (fiber_interface.cc 294-302); in `NotifyAll`, at the loop head; with `u`'s waiter taken off the list and about to be
notified; about to drop the lock (307); about to switch away for good (311); switched away. -/
inductive FPc
  | run | sched | or_ | ntf | act (u : Nat) | clr | pre | out
  deriving DecidableEq, Repr

/-- Where `intrusive_ptr_release` is after it has seen the count 1 (fiber_interface.h 176-195): nobody is there; about to take the
jump point out of `entry_`; about to run the destructor; about to resume the old stack, which frees it. -/
inductive DPc
  | none | move | dtor | resume
  deriving DecidableEq, Repr

inductive Mem
  | live | destroyed | freed
  deriving DecidableEq, Repr

structure State where
  /-- `kTerminatedBit` and `kBusyBit` of `flags_`. -/
  flagT : Bool
  flagB : Bool
  /-- `use_count_`, a 32 bit word. -/
  use : Nat
  /-- `join_q_`: the fibers whose waiters are linked. -/
  jq : List Nat
  /-- Is `entry_` set (the fiber is suspended and can be resumed)? -/
  entry : Bool
  /-- Is the target in `terminate_queue_`? -/
  tq : Bool
  /-- The dispatcher took the target off `terminate_queue_` and is about to release it. -/
  popped : Bool
  fpc : FPc
  jpc : Nat → JPc
  wake : Nat → Bool
  /-- The handles: one entry, the fiber that has it, for each. -/
  hold : List Nat
  dpc : DPc
  mem : Mem
  /-- History: how often a release started destroying the fiber. -/
  dtors : Nat
  /-- An operation touched the fiber after its destructor, a linked or freed waiter, or failed a check of the code. -/
  bad : Bool

/-- `Fiber::Fiber` (fibers.h 57-69): the object is created with count 1, for the running fiber itself (fiber_interface.h 372), and
the new handle adds 1. The fiber `c` has the handle. -/
def start (c : Nat) : State :=
  { flagT := false, flagB := false, use := 2, jq := [], entry := false, tq := false, popped := false, fpc := .run,
    jpc := fun _ => .idle, wake := fun _ => false, hold := [c], dpc := .none, mem := .live, dtors := 0, bad := false }

def Init (s : State) : Prop := ∃ c, s = start c

/-- Touch the target's memory. -/
def State.touch (s : State) : State := { s with bad := s.bad || s.mem != .live }

/-- The `fetch_sub` of `intrusive_ptr_release` (fiber_interface.h 176-177): returns into the destroying branch if the old value
was 1. -/
def State.release (s : State) : State :=
  let s := s.touch
  let s' := { s with use := (s.use + (2 ^ 32 - 1)) % 2 ^ 32 }
  if s.use = 1 then { s' with dpc := .move, dtors := s.dtors + 1 } else s'

/-- One step of `Fiber::Join` by `t`. -/
def stepJ (s : State) (t : Nat) : Option State :=
  match s.jpc t with
  | .idle => none
  | .try_ =>
    -- fiber_interface.cc 373-386: fetch_or(kBusyBit); terminated, owner or not; owner; else spin
    let s1 := { s.touch with flagB := true }
    if s.flagT then
      if s.flagB then some { s1 with jpc := upd s.jpc t .ret } else some { s1 with jpc := upd s.jpc t .rel }
    else if s.flagB then some s1
    else some { s1 with jpc := upd s.jpc t .link }
  | .rel => some { s.touch with flagB := false, jpc := upd s.jpc t .ret }     -- 376
  | .link => some { s.touch with jq := s.jq ++ [t], jpc := upd s.jpc t .clr } -- 388-389
  | .clr => some { s.touch with flagB := false, jpc := upd s.jpc t .susp }    -- 390
  | .susp =>
    -- 393-394: runs again once activated; then DCHECK(!waiter.IsLinked())
    if s.wake t then
      some { s with wake := upd s.wake t false, jpc := upd s.jpc t .ret, bad := s.bad || s.jq.contains t }
    else none
  | .ret => some { s.release with hold := s.hold.erase t, jpc := upd s.jpc t .idle } -- fibers.cc 38

/-- Does fiber `u` have a waiter, alive, that a notification may use? -/
def waiting (s : State) (u : Nat) : Bool := (s.jpc u == .susp || s.jpc u == .clr) && !s.wake u

/-- One step of the target. -/
def stepF (s : State) : Option State :=
  match s.fpc with
  | .run => some { s with fpc := .sched }                    -- the function returns (fiber_interface.h 388-397)
  | .sched => some { s.touch with tq := true, fpc := .or_ }  -- fiber_interface.cc 291
  | .or_ =>
    -- 294-302
    let s1 := { s.touch with flagT := true, flagB := true }
    if s.flagB then some s1 else some { s1 with fpc := .ntf }
  | .ntf =>
    -- 305, wait_queue.cc 67-90
    match s.jq with
    | [] => some { s.touch with fpc := .clr }
    | u :: q => some { s.touch with jq := q, fpc := .act u }
  | .act u => some { s.touch with wake := upd s.wake u true, bad := s.bad || s.mem != .live || !waiting s u, fpc := .ntf }
  | .clr => some { s.touch with flagB := false, fpc := .pre } -- 307
  | .pre => some { s.touch with entry := true, fpc := .out }  -- 311 and SwitchTo
  | .out => none

/-- One step of `DestroyTerminated` (scheduler.cc 352-368), which the dispatcher fiber of the target's thread runs. It runs only
while the target does not: the target may be suspended inside its function or has switched away for good. -/
def stepD (s : State) : Option State :=
  if s.fpc = .run ∨ s.fpc = .out then
    if s.popped then some { s.release with popped := false }
    else if s.tq then some { s.touch with tq := false, popped := true }
    else none
  else none

/-- One step of the destroying branch of `intrusive_ptr_release` (fiber_interface.h 188-195), on whatever thread. The destructor
checks of `~FiberInterface` (fiber_interface.cc 264-269). -/
def stepX (s : State) : Option State :=
  match s.dpc with
  | .none => none
  | .move => some { s.touch with entry := false, bad := s.bad || s.mem != .live || !s.entry, dpc := .dtor }
  | .dtor => some { s with mem := .destroyed, bad := s.bad || s.mem != .live || s.use != 0 || !s.jq.isEmpty || s.tq, dpc := .resume }
  | .resume => some { s with mem := .freed, bad := s.bad || s.mem == .freed, dpc := .none }

/-- `f`, `d`, `x`, `j t`: a step of the target, of its dispatcher, of a destruction in progress, of `t`'s `Join`. What the other
fibers may do between operations: call `Join`, copy a handle (`intrusive_ptr_add_ref`, fiber_interface.h 171-173), release one
(`Detach`, fibers.cc 29-31), move one to another fiber. -/
inductive Act
  | f | d | x | j (t : Nat) | join (t : Nat) | copy (t : Nat) | drop (t : Nat) | give (t u : Nat)

def step (s : State) : Act → Option State
  | .f => stepF s
  | .d => stepD s
  | .x => stepX s
  | .j t => stepJ s t
  | .join t => if s.jpc t = .idle ∧ t ∈ s.hold then some { s with jpc := upd s.jpc t .try_ } else none
  | .copy t => if s.jpc t = .idle ∧ t ∈ s.hold then
      some { s.touch with use := (s.use + 1) % 2 ^ 32, hold := t :: s.hold } else none
  | .drop t => if s.jpc t = .idle ∧ t ∈ s.hold then some { s.release with hold := s.hold.erase t } else none
  | .give t u => if s.jpc t = .idle ∧ t ∈ s.hold then some { s with hold := u :: s.hold.erase t } else none

end Verif.Join
