import Verif.Common.TS
/-!
# Model of the switch hooks of fibers (util/fibers/detail/fiber_interface.cc 433-486, 523-530, 608-615, fiber_interface.h 38-54, 257-259)

`n` threads, each with its active fiber. A fiber switches to another one that is active nowhere (that the scheduler chooses such a fiber is the
subject of Sched). A fiber may go on on another thread (migration). A callback is a number; 
that callbacks do not switch is required of them and assumed. `entry_` of the new fiber is resumed with a function that first runs its hook, as
it was when the switch began.
-/
namespace Verif.Hooks
open Verif.Common

/-- What happens to fiber `f`: it runs code, it sets its hook, its hook `h` is called with SUSPEND or RESUME, it stops being the active fiber or
becomes it. -/
inductive Ev where
  | code (f : Nat)
  | set (f : Nat) (h : Option Nat)
  | susp (f h : Nat)
  | res (f h : Nat)
  | away (f : Nat)
  | back (f : Nat)
deriving DecidableEq

structure S where
  /-- `FbInitializer().active` of each thread -/
  act : Nat → Nat
  /-- `switch_hook_` -/
  hook : Nat → Option Nat
  log : List Ev

inductive Act where
  | code (t : Nat)
  | set (t : Nat) (h : Option Nat)
  | switch (t g : Nat)

/-- `FiberSwitchHook::Run` (608-615) with SUSPEND. -/
def runSusp (f : Nat) : Option Nat → List Ev
  | some h => [.susp f h]
  | none => []

/-- With RESUME. -/
def runRes (f : Nat) : Option Nat → List Ev
  | some h => [.res f h]
  | none => []

/-- `SetSwitchHook` (fiber_interface.h 257-259), `SwitchTo` and `SwitchToAndExecute` (433-486) with `SwitchSetup` (523-530). -/
def step (n : Nat) (s : S) : Act → Option S
  | .code t => if t < n then some { s with log := s.log ++ [.code (s.act t)] } else none
  | .set t h =>
    if t < n then some { s with hook := upd s.hook (s.act t) h, log := s.log ++ [.set (s.act t) h] } else none
  | .switch t g =>
    if t < n ∧ (List.range n).all (fun u => s.act u ≠ g) then
      let f := s.act t
      let resume := s.hook g
      some { s with act := upd s.act t g,
                    log := s.log ++ runSusp f (s.hook f) ++ [.away f] ++ [.back g] ++ runRes g resume }
    else none

/-- Every thread runs its main fiber. -/
def init : S := ⟨fun t => t, fun _ => none, []⟩

end Verif.Hooks
