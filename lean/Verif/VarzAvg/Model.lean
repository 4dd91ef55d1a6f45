import Verif.Sliding.Model
/-!
# Model of the distributed status variables (util/varz.h 18-76, util/fibers/varz.cc, util/sliding_counter.h 117-156)

`VarzQps` and `VarzMapAverage` in a pool of `n` threads. Every thread only touches its own counters, and a reader visits the threads one
after the other or in parallel, so each visit is one step; all threads are visited at the same `now`. Simplified: keys are numbers; counters
are integers, as in `Verif.Sliding`; the order of the entries of a hash map is the order of insertion, and threads report in the order
of their numbers (in the code both orders are arbitrary: only which entries there are counts); an average is a rational number.
-/
namespace Verif.VarzAvg
open Verif.Sliding

/-- A `Map` (varz.h 46): key, sum, count. -/
abbrev Map := List (Nat × SC × SC)

/-- `Inc` (varz.h 65-68). -/
def inc (now : Nat) (d : Int) (a : SC × SC) : SC × SC := ((a.1.step 7 (.incBy now d)).2, (a.2.step 7 (.incBy now 1)).2)

/-- `IncBy` and `FindSlow` (varz.h 55-62, varz.cc 51-58). -/
def incBy (k now : Nat) (d : Int) : Map → Map
  | [] => [(k, inc now d (SC.init, SC.init))]
  | (k', a) :: m => if k' = k then (k', inc now d a) :: m else (k', a) :: incBy k now d m

/-- An item of the result (varz.cc 69-79). -/
structure Entry where
  key : Nat
  count : Int
  sum : Int
  avg : Option Rat
deriving DecidableEq

/-- The items of a counter (varz.cc 70-79). -/
def entry (now : Nat) (p : Nat × SC × SC) : Entry :=
  let count := (p.2.2.step 7 (.sum now)).1.getD 0
  let sum := (p.2.1.step 7 (.sum now)).1.getD 0
  { key := p.1, count := count, sum := sum,
    avg := if count ≠ 0 then some (if count > 0 then (sum : Rat) / count else 0) else none }

/-- `Sum` moves the windows. -/
def moved (now : Nat) (p : Nat × SC × SC) : Nat × SC × SC := (p.1, (p.2.1.step 7 (.sum now)).2, (p.2.2.step 7 (.sum now)).2)

/-- The maps of the threads (varz.h 75). -/
abbrev Sys := Nat → Map

/-- What happens: an increment on thread `i`, a read. -/
inductive Ev where
  | inc (i k now : Nat) (d : Int)
  | get (now : Nat)

/-- The effect on the maps. -/
def step (s : Sys) : Ev → Sys
  | .inc i k now d => fun j => if j = i then incBy k now d (s j) else s j
  | .get now => fun j => (s j).map (moved now)

def run (h : List Ev) : Sys := h.foldl step fun _ => []

/-- `GetData` (varz.cc 60-87). -/
def getData (n : Nat) (s : Sys) (now : Nat) : List Entry := (List.range n).flatMap fun i => (s i).map (entry now)

/-! `VarzQps`. -/

/-- An increment on thread `i`, a read (both move the windows). -/
inductive QEv where
  | inc (i now : Nat)
  | get (now : Nat)

/-- sliding_counter.h 135-137, 150-156. -/
def qstep (s : Nat → SC) : QEv → Nat → SC
  | .inc i now => fun j => if j = i then ((s j).step 7 (.incBy now 1)).2 else s j
  | .get now => fun j => ((s j).step 7 (.sumTail now)).2

def qrun (h : List QEv) : Nat → SC := h.foldl qstep fun _ => SC.init

/-- `SumTail` (sliding_counter.h 150-158) in `uint32_t`, and `GetData` (varz.cc 18-21). -/
def qps (n : Nat) (s : Nat → SC) (now : Nat) : Nat :=
  (((List.range n).map fun i => ((s i).step 7 (.sumTail now)).1.getD 0).sum % (2 ^ 32 : Int)).toNat / 6

end Verif.VarzAvg
