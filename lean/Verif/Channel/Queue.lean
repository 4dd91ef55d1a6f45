import Verif.Common.TS
/-!
# The queue under `SimpleChannel` and `FiberQueue`, as its users see it

`base::mpmc_bounded_queue` (base/mpmc_bounded_queue.h 81-161) and `folly::ProducerConsumerQueue`
(base/ProducerConsumerQueue.h 83-170) at the granularity of their linearization points. An enqueue first claims the next
position (`enqueue_pos_` CAS, line 98) and later publishes it (`sequence.store(pos + 1)`, 106); a dequeue first claims
(`dequeue_pos_` CAS, 120; `dequeue_pos_.store`, 151) and later releases its cell (`sequence.store(pos + mask + 1)`, 132,
154). In between other threads run, so a position may be claimed and not yet readable, and a taken cell may not yet be
reusable. `Verif.Mpmc` and `Verif.Spsc` model the queues access by access and prove that they behave like this; here
failing operations are atomic: they fail exactly when the sequence number they load says so.

`cap` is `mask + 1` for the first queue and `size - 1` for the second.
-/
namespace Verif.Channel
open Verif.Common

/-- `tail`: the next position to enqueue; `cell p`: the value published at position `p`; `head`: the next position to
dequeue; `freed p`: the cell of position `p` was released. Ghost: `items`, the values for which a position was claimed, in
order of positions. A cell keeps its value after its release, since no position is used twice. -/
structure Q (α : Type) where
  cap : Nat
  tail : Nat := 0
  cell : Nat → Option α := fun _ => none
  head : Nat := 0
  freed : Nat → Bool := fun _ => false
  items : List α := []

variable {α : Type}

/-- The position `p` can be claimed by an enqueue: its cell is unused or was released (mpmc_bounded_queue.h 94-102). -/
def Q.room (q : Q α) (p : Nat) : Bool := p < q.cap || q.freed (p - q.cap)

/-- `try_enqueue` up to its claim; `none` = it returns false. -/
def Q.claim (q : Q α) (x : α) : Option (Q α × Nat) :=
  if q.room q.tail then some ({ q with tail := q.tail + 1, items := q.items ++ [x] }, q.tail) else none

/-- `try_enqueue`, the construction and `sequence.store(pos + 1)`. -/
def Q.publish (q : Q α) (p : Nat) (x : α) : Q α := { q with cell := upd q.cell p (some x) }

/-- `try_dequeue` / `try_dequeue_sc` up to its claim; `none` = it returns false. -/
def Q.take (q : Q α) : Option (Q α × Nat × α) :=
  match q.cell q.head with
  | some v => some ({ q with head := q.head + 1 }, q.head, v)
  | none => none

/-- `try_dequeue`, `sequence.store(pos + mask + 1)`. -/
def Q.release (q : Q α) (p : Nat) : Q α := { q with freed := upd q.freed p true }

/-- A new queue. -/
def Q.Fresh (q : Q α) : Prop := ∃ cap, 0 < cap ∧ q = { cap }

end Verif.Channel
