import Verif.Common.TS
/-!
Periodic tasks on the io_uring proactor: `AddPeriodic` and `CancelPeriodic` (util/fibers/proactor_base.cc 251-280,
proactor_base.h 228-242), `SchedulePeriodic`, `PeriodicCb`, `CancelPeriodicInternal` (util/fibers/uring_proactor.cc 688-728)
and the part of `ProcessCqeBatch` and `ReapCompletions` that runs them (279-367).

Everything runs on one thread. Fibers and the I/O loop take turns: fibers add and cancel tasks while the loop does not
reap completions; while it does, only callbacks run, and of these tasks may call `AddPeriodic` (`CancelPeriodic` blocks and
"Should not run directly from I/O loop", proactor_base.h 172-175). The kernel takes submissions in the order of the queue;
timers expire, other operations complete and completions are posted at any time. Which free position of the table a
submission gets is left open (the free list is modelled for C30). Positions stand for user data, which is the position plus
a constant. Fewer than 2^32 tasks are added.
-/
namespace Verif.Periodic
open Verif.Common

/-- The callback in a position of the table: `PeriodicCb` of an item (691-693), the wake-up of the fiber in a call of
`CancelPeriodic` (719-721), any other operation. -/
inductive Cb
  | timer (i : Nat)
  | remove (f : Nat)
  | other
deriving DecidableEq, Repr

/-- `PeriodicItem` (proactor_base.h 228-242): `ref_cnt`, `val1`; whether `periodic_map_` has it and whether it was deleted. -/
structure Item where
  ref : Nat
  ud : Nat
  inMap : Bool
  freed : Bool
deriving DecidableEq, Repr

/-- A submission: its user data, its callback, and for a timeout removal the user data of the timer to remove. -/
structure Sqe where
  ud : Nat
  cb : Cb
  target : Nat
deriving DecidableEq, Repr

/-- A timer in the kernel; `dying` is one that was removed and whose completion was not posted yet. -/
structure KT where
  ud : Nat
  i : Nat
  dying : Bool
deriving DecidableEq, Repr

inductive Res
  /-- -ETIME -/
  | etime
  /-- -ECANCELED -/
  | ecanceled
  /-- the result of anything else -/
  | other
deriving DecidableEq, Repr

/-- A completion. `cb` is not in the code: it is the callback with which the operation was submitted. -/
structure Cqe where
  ud : Nat
  res : Res
  cb : Cb
deriving DecidableEq, Repr

/-- A call of `CancelPeriodic` for item `i`, and whether it has returned. -/
structure Cancel where
  i : Nat
  done : Bool
deriving DecidableEq, Repr

/-- Fibers run, the loop reaps completions (351-359), the loop submits the timers again (362-365). -/
inductive Mode
  | fibers | reaping | resched
deriving DecidableEq, Repr

inductive Bad
  /-- an empty callback is called -/
  | noCb
  /-- a deleted item is used -/
  | useFreed
  /-- CHECK_EQ(res, -ETIME) (708) -/
  | notEtime
deriving DecidableEq, Repr

/-- What an observer sees: task `i` was added, its timer expired in the kernel, the task was called, `CancelPeriodic` was
called and returned, the record was deleted. -/
inductive Ev
  | added (i : Nat)
  | expired (i : Nat)
  | called (i : Nat)
  | cancelStart (i : Nat)
  | cancelDone (i : Nat)
  | freed (i : Nat)
deriving DecidableEq, Repr

structure S where
  items : List Item
  /-- the callbacks of `centries_` -/
  slots : Nat → Option Cb
  /-- the submission queue -/
  sq : List Sqe
  /-- timers and other operations in the kernel -/
  kt : List KT
  ko : List Nat
  /-- the completion queue -/
  cq : List Cqe
  /-- `schedule_periodic_list_` -/
  plist : List Nat
  cans : List Cancel
  mode : Mode
  log : List Ev
  bad : Option Bad

inductive Act
  /-- `AddPeriodic`; the argument is the free position that the submission gets -/
  | add (u : Nat)
  /-- `CancelPeriodic` of task `i` -/
  | cancel (i u : Nat)
  /-- any other submission -/
  | other (u : Nat)
  /-- the kernel takes the next submission -/
  | submit
  /-- timer `k` expires, the completion of the removed timer `k` is posted, other operation `k` completes -/
  | fire (k : Nat)
  | post (k : Nat)
  | comp (k : Nat)
  /-- the loop begins to reap, processes one completion, has seen the queue empty, submits one timer again, is done -/
  | begin
  | proc
  | drained
  | resch (u : Nat)
  | finish
deriving DecidableEq, Repr

def S.init : S where
  items := []
  slots := fun _ => none
  sq := []
  kt := []
  ko := []
  cq := []
  plist := []
  cans := []
  mode := .fibers
  log := []
  bad := none

def S.setI (s : S) (i : Nat) (x : Item) : S := { s with items := s.items.set i x }
def S.fail (s : S) (b : Bad) : S := { s with bad := some b }

/-- `GetSubmitEntry` (369-403) with position `u`, and the submission that is prepared in it. -/
def S.push (s : S) (u : Nat) (cb : Cb) (target : Nat) : S :=
  { s with slots := upd s.slots u (some cb), sq := s.sq ++ [⟨u, cb, target⟩] }

/-- `SchedulePeriodic` (688-700) of item `i`. -/
def S.schedule (s : S) (i u : Nat) : S :=
  match s.items[i]? with
  | none => s
  | some x =>
    if x.freed then s.fail .useFreed
    else (s.push u (.timer i) 0).setI i { x with ref := 2, ud := u }

/-- `AddPeriodic` (proactor_base.cc 251-268). -/
def S.add (s : S) (u : Nat) : Option S :=
  if s.mode = .resched ∨ (s.slots u).isSome then none
  else
    let i := s.items.length
    some (S.schedule { s with items := s.items ++ [⟨1, 0, true, false⟩], log := s.log ++ [.added i] } i u)

/-- `CancelPeriodic` and `CancelPeriodicInternal` (proactor_base.cc 270-280, uring_proactor.cc 717-728). The caller passes an
id that is registered (CHECK in line 274). -/
def S.cancel (s : S) (i u : Nat) : Option S :=
  match s.items[i]? with
  | none => none
  | some x =>
    if s.mode ≠ .fibers ∨ (s.slots u).isSome ∨ ¬ x.inMap then none
    else
      let f := s.cans.length
      let s1 := s.setI i { x with ref := x.ref - 1, inMap := false }
      some { s1.push u (.remove f) x.ud with cans := s.cans ++ [⟨i, false⟩], log := s.log ++ [.cancelStart i] }

/-- Any other call of `GetSubmitEntry` with a callback. -/
def S.other (s : S) (u : Nat) : Option S :=
  if s.mode = .resched ∨ (s.slots u).isSome then none
  else some (s.push u .other 0)

/-- The kernel removes the timer with user data `u` if it is armed. -/
def remove (kt : List KT) (u : Nat) : List KT := kt.map fun t => if t.ud = u then { t with dying := true } else t

/-- The kernel takes the submission at the head of the queue: a timer is armed, a removal looks for its timer and completes,
another operation begins. -/
def S.submit (s : S) : Option S :=
  match s.sq with
  | [] => none
  | e :: sq =>
    match e.cb with
    | .timer i => some { s with sq := sq, kt := s.kt ++ [⟨e.ud, i, false⟩] }
    | .remove f => some { s with sq := sq, kt := remove s.kt e.target, cq := s.cq ++ [⟨e.ud, .other, .remove f⟩] }
    | .other => some { s with sq := sq, ko := s.ko ++ [e.ud] }

/-- A timer expires. -/
def S.fire (s : S) (k : Nat) : Option S :=
  match s.kt[k]? with
  | none => none
  | some t =>
    if t.dying then none
    else some { s with kt := s.kt.eraseIdx k, cq := s.cq ++ [⟨t.ud, .etime, .timer t.i⟩], log := s.log ++ [.expired t.i] }

/-- The completion of a removed timer is posted. -/
def S.post (s : S) (k : Nat) : Option S :=
  match s.kt[k]? with
  | none => none
  | some t =>
    if t.dying then some { s with kt := s.kt.eraseIdx k, cq := s.cq ++ [⟨t.ud, .ecanceled, .timer t.i⟩] }
    else none

/-- Another operation completes. -/
def S.comp (s : S) (k : Nat) : Option S :=
  match s.ko[k]? with
  | none => none
  | some u => some { s with ko := s.ko.eraseIdx k, cq := s.cq ++ [⟨u, .other, .other⟩] }

/-- `PeriodicCb` (702-715). -/
def S.periodicCb (s : S) (i : Nat) (r : Res) : S :=
  match s.items[i]? with
  | none => s
  | some x =>
    if x.freed then s.fail .useFreed
    else if x.ref ≤ 1 then { s.setI i { x with freed := true } with log := s.log ++ [.freed i] }
    else if r ≠ .etime then s.fail .notEtime
    else { s with plist := s.plist ++ [i], log := s.log ++ [.called i] }

/-- The fiber in call `f` of `CancelPeriodic` is woken and returns (720, 727). -/
def S.cancelCb (s : S) (f : Nat) : S :=
  match s.cans[f]? with
  | none => s
  | some c => { s with cans := s.cans.set f { c with done := true }, log := s.log ++ [.cancelDone c.i] }

/-- One completion in `ProcessCqeBatch` (281-319): the position is freed, then the callback is called. -/
def S.proc (s : S) : Option S :=
  if s.mode ≠ .reaping then none
  else
    match s.cq with
    | [] => none
    | c :: cq =>
      let s1 : S := { s with cq := cq, slots := upd s.slots c.ud none }
      match s.slots c.ud with
      | none => some (s.fail .noCb)
      | some (.timer i) => some (s1.periodicCb i c.res)
      | some (.remove f) => some (s1.cancelCb f)
      | some .other => some s1

/-- One round of the loop over `schedule_periodic_list_` (362-364). -/
def S.resch (s : S) (u : Nat) : Option S :=
  if s.mode ≠ .resched ∨ (s.slots u).isSome then none
  else
    match s.plist with
    | [] => none
    | i :: rest => some (S.schedule { s with plist := rest } i u)

def stepA (s : S) : Act → Option S
  | .add u => s.add u
  | .cancel i u => s.cancel i u
  | .other u => s.other u
  | .submit => s.submit
  | .fire k => s.fire k
  | .post k => s.post k
  | .comp k => s.comp k
  | .begin => if s.mode = .fibers then some { s with mode := .reaping } else none
  | .proc => s.proc
  | .drained => if s.mode = .reaping ∧ s.cq = [] then some { s with mode := .resched } else none
  | .resch u => s.resch u
  | .finish => if s.mode = .resched ∧ s.plist = [] then some { s with mode := .fibers } else none

def step (s : S) (a : Act) : Option S := if s.bad.isSome then none else stepA s a

def Init (s : S) : Prop := s = S.init

end Verif.Periodic
