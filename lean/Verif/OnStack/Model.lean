import Verif.Common.TS
/-!
# Model of running a function on the stack of another fiber

`FiberInterface::ExecuteOnFiberStack` (util/fibers/detail/fiber_interface.cc:503-522),
`Scheduler::ExecuteOnAllFiberStacks` (util/fibers/detail/scheduler.cc:481-486) and `SwitchTo`
(fiber_interface.cc:433-456) of one thread. A `fiber_context` is `none` (empty) or the fiber whose
stack it suspends. Boost's `resume_with` is modelled by what it is documented to do: the given function
runs on top of the suspended stack, and what it returns is what the suspended call returns. Left out:
the end of fibers, switch hooks and the address sanitizer.
-/
namespace Verif.OnStack
open Verif.Common

/-- A call on top of a suspended stack: the function of lines 515-520, in its `resume`. -/
inductive Frame
  | probe
deriving DecidableEq, Repr

/-- One thread. -/
structure S where
  /-- the running fiber -/
  active : Nat
  /-- `fibers_` -/
  known : List Nat
  /-- `entry_` of each fiber -/
  entry : Nat → Option Nat
  /-- what was put on top of each suspended stack, the newest first -/
  frames : Nat → List Frame
  /-- the calls of the function: its argument, and the stack it ran on -/
  ran : List (Nat × Nat)
  /-- the fibers that went on, with the context that their own `SwitchTo` returned -/
  resumed : List (Nat × Option Nat)
  /-- an empty context was resumed -/
  bad : Bool

def init : S := ⟨0, [0], fun _ => none, fun _ => [], [], [], false⟩

/-- The stack is resumed with a context `v`: each function on top of it assigns it to its own `c` and
returns that (lines 518-519). -/
def unwind : List Frame → Option Nat → Option Nat
  | [], v => v
  | .probe :: r, v => unwind r v

/-- fiber_interface.cc:503-522, `f->ExecuteOnFiberStack(fn)`. -/
def probe (f : Nat) (s : S) : S :=
  if s.active = f then { s with ran := s.ran ++ [(f, s.active)] }
  else match s.entry f with
    | none => { s with bad := true }
    | some h =>
      -- 515: `std::move(entry_)`; 516: `fn(this)`
      let s := { s with entry := upd s.entry f none, ran := s.ran ++ [(f, h)] }
      -- 518: the function suspends in `resume` and the caller goes on with the context of `h`
      let s := { s with frames := upd s.frames h (.probe :: s.frames h) }
      { s with entry := upd s.entry f (some h) }

/-- scheduler.cc:481-486. -/
def probeAll (s : S) : S := s.known.foldl (fun s f => probe f s) s

/-- fiber_interface.cc:433-456, `f->SwitchTo()` by the running fiber: `prev->entry_` is set on top of the
stack of `f`, and an empty context is returned to it. -/
def switchTo (f : Nat) (s : S) : S :=
  match s.entry f with
  | none => { s with bad := true }
  | some h =>
    { s with
      entry := upd (upd s.entry f none) s.active (some s.active)
      frames := upd s.frames h []
      resumed := s.resumed ++ [(h, unwind (s.frames h) none)]
      active := h }

inductive Act
  | start (f : Nat)
  | switch (f : Nat)
  | probe (f : Nat)
  | probeAll
deriving DecidableEq, Repr

/-- What the running fiber does: it starts a fiber, switches to another one, or runs the function on one
or all stacks. -/
def step (s : S) : Act → Option S
  | .start f => if f ∈ s.known then none else some { s with known := s.known ++ [f], entry := upd s.entry f (some f) }
  | .switch f => if f ∈ s.known ∧ f ≠ s.active then some (switchTo f s) else none
  | .probe f => if f ∈ s.known then some (probe f s) else none
  | .probeAll => some (probeAll s)

end Verif.OnStack
