import Verif.Periodic.Spec
/-!
Periodic tasks on the epoll proactor (Linux): `AddPeriodic` and `CancelPeriodic` (util/fibers/proactor_base.cc 251-280) with
`SchedulePeriodic`, `CancelPeriodicInternal` and `PeriodicCb` (util/fibers/epoll_proactor.cc 409-455, 475-488), `Arm` and
`Disarm` (340-400) and `DispatchCompletions` (490-534).

One thread. A timer file is registered level-triggered with epoll under the position of its callback; it is ready from its
expiry until it is read. `epoll_wait` returns positions of ready files in any order; events of the other files are
arbitrary. Callbacks of other files may arm and disarm anything but periodic tasks (`CancelPeriodic` "should not run directly
from I/O loop", proactor_base.h 173). Which free position `Arm` takes is left open.
-/
namespace Verif.Periodic.Epoll
open Verif.Common Verif.Periodic

/-- `PeriodicItem`: `ref_cnt`, the position `val2`; whether the timer expired since it was read last, whether
`periodic_map_` has the item, whether it was deleted. -/
structure EItem where
  ref : Nat
  slot : Nat
  pending : Bool
  inMap : Bool
  freed : Bool
deriving DecidableEq, Repr

/-- The callback in a position of `centries_`. -/
inductive ECb
  | timer (i : Nat)
  | other
deriving DecidableEq, Repr

structure E where
  items : List EItem
  slots : Nat → Option ECb
  /-- the events of `ev_batch` that were not dispatched yet -/
  batch : List Nat
  /-- the loop dispatches events -/
  disp : Bool
  log : List Ev
  /-- a deleted item is used, or CHECK_GT(item->ref_cnt, 0) (476) fails -/
  bad : Bool

inductive EAct
  | add (u : Nat)
  | cancel (i : Nat)
  /-- any other `Arm` and `Disarm` -/
  | arm (u : Nat)
  | disarm (u : Nat)
  /-- the timer of task `i` expires -/
  | expire (i : Nat)
  /-- `epoll_wait` returns, one event is dispatched, the loop goes on to run fibers -/
  | wait (js : List Nat)
  | dispatch
  | finish
deriving DecidableEq, Repr

def E.init : E := ⟨[], fun _ => none, [], false, [], false⟩

def E.setI (s : E) (i : Nat) (x : EItem) : E := { s with items := s.items.set i x }

/-- `AddPeriodic`, `SchedulePeriodic` (410-423). -/
def E.add (s : E) (u : Nat) : Option E :=
  if (s.slots u).isSome then none
  else some { s with items := s.items ++ [⟨1, u, false, true, false⟩], slots := upd s.slots u (some (.timer s.items.length)),
                     log := s.log ++ [.added s.items.length] }

/-- `CancelPeriodic`, `CancelPeriodicInternal` (436-455): the position is freed, the file closed and the item deleted. -/
def E.cancel (s : E) (i : Nat) : Option E :=
  match s.items[i]? with
  | none => none
  | some x =>
    if s.disp ∨ ¬ x.inMap then none
    else
      some { s.setI i { x with ref := x.ref - 1, inMap := false, freed := true } with
             slots := upd s.slots x.slot none, log := s.log ++ [.cancelStart i, .freed i, .cancelDone i] }

/-- `Arm` of another file (340-383). -/
def E.arm (s : E) (u : Nat) : Option E :=
  if (s.slots u).isSome then none else some { s with slots := upd s.slots u (some .other) }

/-- `Disarm` of another file (385-400). -/
def E.disarm (s : E) (u : Nat) : Option E :=
  if s.slots u = some .other then some { s with slots := upd s.slots u none } else none

/-- The timer of a task expires in the kernel; its file exists as long as the task is registered. -/
def E.expire (s : E) (i : Nat) : Option E :=
  match s.items[i]? with
  | none => none
  | some x => if x.inMap then some { s.setI i { x with pending := true } with log := s.log ++ [.expired i] } else none

/-- The file of position `j` may be reported. -/
def E.canReport (s : E) (j : Nat) : Bool :=
  match s.slots j with
  | none => false
  | some .other => true
  | some (.timer i) => match s.items[i]? with
    | none => false
    | some x => x.pending

/-- `EpollWait` (276, 306). -/
def E.wait (s : E) (js : List Nat) : Option E :=
  if s.batch = [] ∧ js.Nodup ∧ js.all s.canReport then some { s with batch := js, disp := true } else none

/-- `PeriodicCb` (475-488): the task is called, then the file is read. -/
def E.periodicCb (s : E) (i : Nat) : E :=
  match s.items[i]? with
  | none => s
  | some x =>
    if x.freed ∨ x.ref = 0 then { s with bad := true }
    else { s.setI i { x with pending := false } with log := s.log ++ [.called i] }

/-- One round of the loop in `DispatchCompletions` (494-527). -/
def E.dispatch (s : E) : Option E :=
  match s.batch with
  | [] => none
  | j :: rest =>
    let s1 := { s with batch := rest }
    match s.slots j with
    | none => some s1
    | some .other => some s1
    | some (.timer i) => some (s1.periodicCb i)

def estepA (s : E) : EAct → Option E
  | .add u => s.add u
  | .cancel i => s.cancel i
  | .arm u => s.arm u
  | .disarm u => s.disarm u
  | .expire i => s.expire i
  | .wait js => s.wait js
  | .dispatch => s.dispatch
  | .finish => if s.disp ∧ s.batch = [] then some { s with disp := false } else none

def estep (s : E) (a : EAct) : Option E := if s.bad then none else estepA s a

/-- As `estep`, but no callback disarms anything while events are dispatched. -/
def estepQ (s : E) (a : EAct) : Option E :=
  match a with
  | .disarm _ => if s.disp then none else estep s a
  | _ => estep s a

def EInit (s : E) : Prop := s = E.init

end Verif.Periodic.Epoll
