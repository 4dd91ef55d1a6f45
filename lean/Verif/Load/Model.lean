/-!
# Model of the idle ratio and the periodic tasks of a proactor

`ProactorBase::ShouldPollL2Tasks`, `RunL2Tasks` and `IdleEnd`
(util/fibers/proactor_base.cc:344-388), `IdleRatio` (proactor_base.h:213-215). One thread. Times are
values of the cycle counter; 64 bit subtraction and addition wrap as in the code. `per10` is
`cycles_per_10us`.
-/
namespace Verif.Load

/-- `uint64_t` subtraction. -/
def sub64 (a b : Nat) : Nat := (a + 2 ^ 64 - b) % 2 ^ 64

/-- `uint64_t` addition. -/
def add64 (a b : Nat) : Nat := (a + b) % 2 ^ 64

/-- proactor_base.h:343-344: `cpu_measure_cycle_start_`, `cpu_idle_cycles_`, `load_numerator_` and
`load_denominator_`. -/
structure Meas where
  start : Nat
  idle : Nat
  num : Nat
  den : Nat
deriving DecidableEq, Repr

/-- proactor_base.h:344 and proactor_base.cc:426: the thread starts at time `t0`. -/
def Meas.new (t0 : Nat) : Meas := { start := t0, idle := 0, num := 0, den := 1 }

/-- proactor_base.cc:372-388, `IdleEnd(start)` at time `fin`. The other counters it sets are left out. -/
def Meas.idleEnd (m : Meas) (per10 start fin : Nat) : Meas :=
  let period := per10 * 500000 % 2 ^ 64
  let m := { m with idle := add64 m.idle (sub64 fin start) }
  if fin > add64 m.start period then
    { start := fin, idle := 0, num := m.idle, den := sub64 fin m.start }
  else m

/-- The measurements after a history of waits (their start and end), the newest first. -/
def measured (per10 t0 : Nat) : List (Nat × Nat) → Meas
  | [] => Meas.new t0
  | w :: h => (measured per10 t0 h).idleEnd per10 w.1 w.2

/-- proactor_base.cc:344-347, `ShouldPollL2Tasks`; `last` is `last_level2_cycle_`. -/
def shouldPoll (per10 last now : Nat) : Bool := decide (now > last + 256 * per10)

/-- proactor_base.cc:349-370, `RunL2Tasks`: whether the tasks run, and `last_level2_cycle_`. The sums do
not wrap here. -/
def runL2 (per10 last now : Nat) : Bool × Nat :=
  let now := if now < last then last + per10 else now
  if now ≥ last + per10 then (true, now) else (false, last)

/-- The calls of `RunL2Tasks` at the given times, oldest first: which of them run the tasks, and
`last_level2_cycle_`. -/
def calls (per10 last : Nat) : List Nat → List Bool × Nat
  | [] => ([], last)
  | t :: ts =>
    let r := runL2 per10 last t
    let q := calls per10 r.2 ts
    (r.1 :: q.1, q.2)

end Verif.Load
