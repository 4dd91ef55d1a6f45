import Verif.Common.TS
/-!
# Model of the statistics of fiber switches

`FiberInterface::SwitchSetup` (util/fibers/detail/fiber_interface.cc:522-567), `SetReadyStart` and
`SetCpuStart` (fiber_interface.h:284-293), `ResetFiberRunSeq` (fiber_interface.cc:588-592) and the
functions that report the numbers (fiber_interface.cc:622-654, fibers.h:120-136). One thread.

The times are the values of the cycle counter (64 bits). The accumulated counters are 64 bit in the code
and natural numbers here; the differences, the product and the conversion to `unsigned` wrap as in the
code. The hooks, the warning and the debug check are left out. `none` is a division by zero.
-/
namespace Verif.SwitchStat
open Verif.Common

/-- `uint64_t` subtraction. -/
def sub64 (a b : Nat) : Nat := (a + 2 ^ 64 - b) % 2 ^ 64

/-- fiber_interface.h:333-342. -/
structure Fib where
  ready : Nat
  cpu : Nat
  preempt : Nat

/-- fiber_interface.cc:179-195, `TL_FiberInitializer`, with `tl.epoch` and the fibers. Fibers are
numbers, and `names` records them instead of their names; 0 is the main fiber. -/
structure St where
  fib : Nat → Fib
  active : Nat
  epoch : Nat
  delay : Nat
  longCnt : Nat
  longUsec : Nat
  seq : Nat
  names : Nat → Nat

/-- The thread at its start, at time `t0`. -/
def St.new (t0 : Nat) : St :=
  { fib := fun _ => { ready := t0, cpu := t0, preempt := 0 }, active := 0, epoch := 0, delay := 0,
    longCnt := 0, longUsec := 0, seq := 0, names := fun _ => 0 }

/-- What happens, with the value of the cycle counter: a fiber is created or made ready
(fiber_interface.cc:263, fiber_interface.h:284-286), the thread switches to a fiber, the thread comes
back from waiting for I/O. -/
inductive Ev where
  | ready (f t : Nat)
  | switch (f t : Nat)
  | wake (t : Nat)
deriving DecidableEq, Repr

/-- fiber_interface.cc:553: the microseconds of a long run, an `unsigned`. -/
def usec (perMs run : Nat) : Nat := (run * 1000 % 2 ^ 64 / perMs) % 2 ^ 32

/-- fiber_interface.cc:522-567, `SwitchSetup` of the fiber `f`. -/
def St.switch (s : St) (perMs f t : Nat) : Option St :=
  let old := s.active
  let s1 := { s with active := f, names := upd s.names (s.seq % 8) old, seq := (s.seq + 1) % 2 ^ 32 }
  let s2 : Option St :=
    if t > (s1.fib f).ready then
      let s1 := { s1 with epoch := s1.epoch + 1, delay := s1.delay + (t - (s1.fib f).ready) }
      let run := sub64 t (s1.fib old).cpu
      if run > perMs then
        if perMs = 0 then none
        else some { s1 with longCnt := s1.longCnt + 1, longUsec := s1.longUsec + usec perMs run }
      else some s1
    else some s1
  s2.map (fun s =>
    let fib := upd s.fib old { s.fib old with cpu := t, preempt := (s.fib old).preempt + 1 }
    { s with fib := upd fib f { fib f with cpu := t } })

/-- One event. -/
def St.step (s : St) (perMs : Nat) : Ev → Option St
  | .ready f t => some { s with fib := upd s.fib f { s.fib f with ready := t } }
  | .switch f t => s.switch perMs f t
  | .wake t => some { s with seq := 0, fib := upd s.fib s.active { s.fib s.active with cpu := t } }

/-- The state after a history, of which the newest event comes first. -/
def after (perMs t0 : Nat) : List Ev → Option St
  | [] => some (St.new t0)
  | e :: h => (after perMs t0 h).bind (fun s => s.step perMs e)

/-- fiber_interface.cc:622-627, `FiberSwitchDelayUsec`, without the wrap of the product. -/
def St.delayUsec (s : St) (perMs : Nat) : Nat := s.delay * 1000 / perMs

/-- fiber_interface.cc:645-654, `GetPastFiberNames`. -/
def St.pastNames (s : St) : List Nat := (List.range (s.seq % 8)).map s.names

end Verif.SwitchStat
