/-!
Model of `util::SlidingCounter` (`util/sliding_counter.h`).

The counter type is taken to be the integers: the theorems say what `total_` and the bins hold, so no overflow happens as long as
these sums fit the type. Slot numbers are natural numbers (the `uint64_t` loop of line 174 is taken not to reach 2^64 - 1).
-/
namespace Verif.Sliding

/-- util/sliding_counter.h 58, 112-114. `count` is the array of `num` bins. -/
structure SC where
  count : Nat → Int
  total : Int
  last : Nat

/-- util/sliding_counter.h 94-97, 65-72: a new counter; `last_ts_` is 0. -/
def SC.init : SC := ⟨fun _ => 0, 0, 0⟩

/-- util/sliding_counter.h 176: `total_ -= std::exchange(count_[i % NUM], 0)` -/
def SC.clearBin (num : Nat) (s : SC) (i : Nat) : SC :=
  { s with total := s.total - s.count (i % num), count := fun j => if j = i % num then 0 else s.count j }

/-- util/sliding_counter.h 175-176: the loop, `n` rounds starting at slot `i` -/
def SC.clearBins (num : Nat) (s : SC) (i : Nat) : Nat → SC
  | 0 => s
  | n + 1 => (s.clearBin num i).clearBins num (i + 1) n

/-- util/sliding_counter.h 163-183, `MoveTsIfNeeded` with the clock showing `current`. The returned bin is `last_ts_ % NUM`. -/
def SC.move (num : Nat) (s : SC) (current : Nat) : SC :=
  if current > s.last then
    if current - s.last ≥ num then ⟨fun _ => 0, 0, current⟩
    else { s.clearBins num (s.last + 1) (current - s.last) with last := current }
  else s

/-- Calls: `now` is what the clock shows. -/
inductive Op
  | incBy (now : Nat) (delta : Int)
  | sum (now : Nat)
  | sumTail (now : Nat)
  | reset

/-- util/sliding_counter.h 73-97 -/
def SC.step (num : Nat) (s : SC) : Op → Option Int × SC
  | .incBy now d =>
    let s := s.move num now
    let bin := s.last % num
    (none, { s with count := fun j => if j = bin then s.count j + d else s.count j, total := s.total + d })
  | .sum now => let s := s.move num now; (some s.total, s)
  | .sumTail now => let s := s.move num now; (some (s.total - s.count (s.last % num)), s)
  | .reset => (none, { s with count := fun _ => 0, total := 0 })

/-- A sequence of calls and the values they return. -/
def SC.run (num : Nat) (s : SC) : List Op → List (Option Int)
  | [] => []
  | op :: ops => (s.step num op).1 :: (s.step num op).2.run num ops

end Verif.Sliding
