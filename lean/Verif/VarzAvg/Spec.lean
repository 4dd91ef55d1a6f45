import Verif.VarzAvg.Model
/-!
# Vocabulary of the properties of the status variables
-/
namespace Verif.VarzAvg

def Ev.time : Ev → Nat
  | .inc _ _ now _ => now
  | .get now => now

def QEv.time : QEv → Nat
  | .inc _ now => now
  | .get now => now

/-- An increment of key `k` on thread `i`: when and by how much. -/
def Ev.inc? (i k : Nat) : Ev → Option (Nat × Int)
  | .inc i' k' now d => if i' = i ∧ k' = k then some (now, d) else none
  | .get _ => none

/-- All of them. -/
def incs (h : List Ev) (i k : Nat) : List (Nat × Int) := h.filterMap (Ev.inc? i k)

/-- The key of an increment on thread `i`. -/
def Ev.key? (i : Nat) : Ev → Option Nat
  | .inc i' k _ _ => if i' = i then some k else none
  | .get _ => none

/-- The keys used on thread `i`, in the order of their first use. -/
def keys (h : List Ev) (i : Nat) : List Nat :=
  (h.filterMap (Ev.key? i)).foldl
    (fun acc k => if k ∈ acc then acc else acc ++ [k]) []

/-- The last seven seconds. -/
def recent (now : Nat) (l : List (Nat × Int)) : List (Nat × Int) := l.filter fun e => e.1 + 7 > now

/-- What is known of key `k` of thread `i`: the number of its increments in the last seven seconds, their sum and their average. -/
def expected (h : List Ev) (now i k : Nat) : Entry :=
  let l := recent now (incs h i k)
  { key := k, count := l.length, sum := (l.map (·.2)).sum,
    avg := if l = [] then none else some ((((l.map (·.2)).sum : Int) : Rat) / ((l.length : Int) : Rat)) }

/-- An increment in the six complete seconds before the current one, on a thread that satisfies `p`. -/
def QEv.hit (p : Nat → Bool) (now : Nat) : QEv → Bool
  | .inc i t => p i && decide (t < now) && decide (now ≤ t + 6)
  | .get _ => false

/-- The increments that are counted: of all `n` threads in the six complete seconds before the current one. -/
def counted (n : Nat) (h : List QEv) (now : Nat) : Nat :=
  h.countP (QEv.hit (fun i => decide (i < n)) now)

end Verif.VarzAvg
