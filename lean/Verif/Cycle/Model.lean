/-!
# Model of the cycle clock (base/cycle_clock.h, base/init.cc 65-107)

The counter of the processor is an input: `Now()` (cycle_clock.h 24-36) is where the arguments of `add` come from
(`CpuTimeGuard`, 85-101). `none` is a division by zero. A ratio of the cpu is in thousandths: the multiplications of floats
of `IsOverloaded` are taken as exact.
-/
namespace Verif.Cycle

def two32 : Nat := 2 ^ 32

def two64 : Nat := 2 ^ 64

/-- `CycleClock::FromUsec` (cycle_clock.h 44-46) at frequency `f`. -/
def fromUsec (f usec : Nat) : Nat := (usec * f % two64) / 1000000

/-- `CycleClock::ToUsec` (cycle_clock.h 49-51). -/
def toUsec (f cycles : Nat) : Option Nat :=
  if f = 0 then none else some ((cycles * 1000000 % two64) / f)

/-- `kHighCycleBound` (init.cc 83): `1 << 31UL` has the type of `1`, so it is the smallest `int`, and as `uint64_t` this. -/
def highBound : Nat := two64 - 2 ^ 31

/-- `RealTimeAggregator` (cycle_clock.h 79-82). -/
structure Agg where
  start1 : Nat := 0
  start10 : Nat := 0
  c1 : Nat := 0
  c10 : Nat := 0
deriving DecidableEq, Repr

/-- `RealTimeAggregator::Add` (init.cc 85-107). `freq_ms` is the frequency over 1000 (77). -/
def add (f : Nat) (a : Agg) (start now : Nat) : Option Agg :=
  if f / 1000 = 0 then none
  else
    let nowMs := now / (f / 1000) % two32
    let cycles := (now + two64 - start) % two64
    if a.start1 = nowMs then
      some { a with
        c1 := min ((a.c1 + cycles) % two64) highBound % two32
        c10 := min ((a.c10 + cycles) % two64) highBound % two32 }
    else
      let bucket := nowMs / 10 * 10
      if a.start10 = bucket then
        some { start1 := nowMs, start10 := a.start10
               c1 := min cycles highBound % two32
               c10 := min ((a.c10 + cycles) % two64) highBound % two32 }
      else
        some { start1 := nowMs, start10 := bucket
               c1 := min cycles highBound % two32
               c10 := min cycles highBound % two32 }

/-- `RealTimeAggregator::Usec1ms` (cycle_clock.h 64-67). -/
def usec1 (f : Nat) (a : Agg) : Option Nat := (toUsec f a.c1).map fun u => if u > 1000 then 1000 else u

/-- `RealTimeAggregator::Usec10ms` (cycle_clock.h 69-72). -/
def usec10 (f : Nat) (a : Agg) : Option Nat := (toUsec f a.c1).map fun u => if u > 10000 then 10000 else u

/-- `RealTimeAggregator::IsOverloaded` (cycle_clock.h 75-78), for a ratio of `k` thousandths. -/
def isOverloaded (f : Nat) (a : Agg) (k : Nat) : Option Bool := do
  let u1 ← usec1 f a
  let u10 ← usec10 f a
  return decide (u1 ≥ k) || decide (u10 ≥ 10 * k)

/-- An aggregator after a history of measurements, the last first. -/
def runs (f : Nat) : List (Nat × Nat) → Option Agg
  | [] => some {}
  | m :: h => (runs f h).bind fun a => add f a m.1 m.2

end Verif.Cycle
