import Verif.Common.TS
/-!
# Model of fiber handles (util/fibers/fibers.h 27-115, fibers.cc 14-42, fiber_interface.cc 369-373)

`Fiber` objects are named by numbers; an object exists or not and holds a fiber or none. A call of `Join` is one step, taken when the fiber has finished
(see Join for the waiting); an object is not used by others during a call, as for other C++ objects. `me` is the fiber that calls.
Reference counts of the fiber itself are the subject of RefRA.
-/
namespace Verif.FiberHandle
open Verif.Common

structure S where
  /-- `none`: no such object; `some none`: an empty one -/
  obj : Nat → Option (Option Nat)
  /-- the fibers started so far are those below `next` -/
  next : Nat
  finished : Nat → Bool
  /-- fibers given up by their handle, `true` if joined, `false` if detached -/
  ended : List (Nat × Bool)

def init : S := ⟨fun _ => none, 0, fun _ => false, []⟩

inductive Act where
  | start (h : Nat)
  | empty (h : Nat)
  | moveNew (h g : Nat)
  | assign (h g : Nat)
  | swap (h g : Nat)
  | join (me h : Nat)
  | joinIfNeeded (me h : Nat)
  | detach (h : Nat)
  | destroy (h : Nat)
  /-- the function of the fiber returns -/
  | finish (f : Nat)
deriving DecidableEq

/-- The end of a call: a new state, a failed CHECK, or it waits. -/
inductive R where
  | ok (s : S) | crash | wait

/-- `Join` (fibers.cc 33-38) of an object that holds `o`. -/
def join (s : S) (me h : Nat) : Option Nat → R
  | none => .crash
  | some f => if me = f then .crash
    else if s.finished f then .ok { s with obj := upd s.obj h (some none), ended := s.ended ++ [(f, true)] } else .wait

/-- Calls on objects; `none` if an object does not exist, or exists already. -/
def call (s : S) : Act → Option R
  | .start h => match s.obj h with
    | none => some (.ok { s with obj := upd s.obj h (some (some s.next)), next := s.next + 1 })
    | some _ => none
  | .empty h => match s.obj h with
    | none => some (.ok { s with obj := upd s.obj h (some none) })
    | some _ => none
  -- 78-80
  | .moveNew h g => match s.obj h, s.obj g with
    | none, some o => some (.ok { s with obj := upd (upd s.obj h (some o)) g (some none) })
    | _, _ => none
  -- fibers.cc 18-27
  | .assign h g => match s.obj h, s.obj g with
    | some (some _), some _ => some .crash
    | some none, some o => some (.ok (if h = g then s else { s with obj := upd (upd s.obj h (some o)) g (some none) }))
    | _, _ => none
  -- 84-86
  | .swap h g => match s.obj h, s.obj g with
    | some a, some b => some (.ok { s with obj := upd (upd s.obj h (some b)) g (some a) })
    | _, _ => none
  | .join me h => match s.obj h with
    | some o => some (join s me h o)
    | none => none
  -- fibers.cc 40-43
  | .joinIfNeeded me h => match s.obj h with
    | some none => some (.ok s)
    | some (some f) => some (join s me h (some f))
    | none => none
  -- fibers.cc 29-31
  | .detach h => match s.obj h with
    | some none => some (.ok s)
    | some (some f) => some (.ok { s with obj := upd s.obj h (some none), ended := s.ended ++ [(f, false)] })
    | none => none
  -- fibers.cc 14-16
  | .destroy h => match s.obj h with
    | some none => some (.ok { s with obj := upd s.obj h none })
    | some (some _) => some .crash
    | none => none
  | .finish f => if f < s.next ∧ s.finished f = false then some (.ok { s with finished := upd s.finished f true }) else none

def step (s : S) (a : Act) : Option S := match call s a with
  | some (.ok s) => some s
  | _ => none

end Verif.FiberHandle
