import Verif.Share.Lemmas
/-!
# What it means to share a thread fairly

The words of property C128. `slice` is 10 ms, `D` the longest time between two preemption points in a round
and `R` the longest round of `NORMAL` fibers, all in cycles.
-/
namespace Verif.Share
open Verif.Common

/-- Any execution of a scheduler constructed at `t0` with configuration `c0`. -/
abbrev Runs (p : Par) (t0 : Nat) (c0 : Config) : S → Prop := Reachable (· = S.init t0 c0) (step p)

/-- The dispatcher is not a background fiber. -/
def Fits (p : Par) : Prop := p.prio 0 = .normal

/-- Background fibers are running (or about to): a background round is going on. -/
def S.background (s : S) : Prop := ∃ c, s.pc = .round c true

/-- A loop that has callbacks to run and no `NORMAL` fiber: `d` cycles of callbacks, then `Run(NORMAL)`, which
leaves nothing ready; then around again, as epoll_proactor.cc 321-323 and uring_proactor.cc 905-909 do. -/
def callbacks (d : Nat) : Nat → List Act
  | 0 => []
  | n + 1 => .tick d :: .run false :: callbacks d n

end Verif.Share
