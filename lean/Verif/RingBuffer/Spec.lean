import Verif.RingBuffer.Model
/-!
# Specification: a bounded FIFO list, oldest element first
-/
namespace Verif.RingBuffer

/-- One call on a bounded FIFO of capacity `c`. `none`: the call's precondition is violated. -/
def specStep {α : Type} (c : Nat) (q : List α) : Op α → Option (Out α × List α)
  | .tryEmplace x => if q.length = c then some (.bool false, q) else some (.bool true, q ++ [x])
  | .emplaceOrOverride x =>
    if q.length = c then some (.bool true, q.tail ++ [x]) else some (.bool false, q ++ [x])
  | .tryDeque =>
    match q with
    | [] => some (.deque none, [])
    | x :: rest => some (.deque (some x), rest)
  | .consumeHead n => if n.toNat ≤ q.length then some (.unit, q.drop n.toNat) else none
  | .get i => (q[i.toNat]?).map (fun x => (.elem x, q))
  | .size => some (.num q.length, q)
  | .full => some (.bool (q.length == c), q)
  | .empty => some (.bool q.isEmpty, q)

/-- The outputs of a whole history on a bounded FIFO. -/
def specRun {α : Type} (c : Nat) (q : List α) : List (Op α) → Option (List (Out α) × List α)
  | [] => some ([], q)
  | op :: ops =>
    match specStep c q op with
    | none => none
    | some (o, q1) =>
      match specRun c q1 ops with
      | none => none
      | some (os, q2) => some (o :: os, q2)

end Verif.RingBuffer
