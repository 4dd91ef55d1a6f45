import Verif.Metrics.Model
/-! Words used in the statements of C71. -/
namespace Verif.Metrics
open Verif.Common

/-- What the code looks labels up by. -/
def key (h : Str → Nat) (ls : List Str) : Nat := h ls.flatten

/-- The value that thread `t` has for label tuple number `i`: 0 if it has none. -/
def S.val (s : S) (t i : Nat) : Int := ((s.ts[t]?).bind fun x => x.vec[i]?).getD 0

/-- What `Iterate` would report for label tuple number `i` if no call ran meanwhile: the sum over the threads. -/
def S.seen (s : S) (i : Nat) : Int := ((List.range s.ts.length).map fun t => s.val t i).sum

/-- The calls that thread `t` made with labels that have key `k`, and the value they lead to. -/
def opsOf (h : Str → Nat) (hist : List (Nat × List Str × Op)) (t k : Nat) : List Op :=
  (hist.filter fun e => e.1 == t && key h e.2.1 == k).map fun e => e.2.2

def outcome (ops : List Op) : Int := ops.foldl Op.app 0

/-- How much was added for the labels `ls`, by all threads. -/
def added (hist : List (Nat × List Str × Op)) (ls : List Str) : Int :=
  ((hist.filter fun e => e.2.1 == ls).map fun e => match e.2.2 with
    | .inc v => v
    | .set _ => 0).sum

/-- All calls so far were increments, by amounts that are not negative. -/
def S.Counter (s : S) : Prop := ∀ e ∈ s.hist, ∃ v : Int, 0 ≤ v ∧ e.2.2 = .inc v

/-- Different label tuples were never looked up by the same key. -/
def S.NoClash (h : Str → Nat) (s : S) : Prop :=
  (∀ a ∈ s.vals, ∀ e ∈ s.hist, key h a = key h e.2.1 → a = e.2.1)

end Verif.Metrics
