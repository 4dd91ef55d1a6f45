import Verif.EventCount.Monitor
/-!
`EmbeddedBlockingCounter` (util/fibers/event_count.h 167-221, synchronization.cc 123-157, synchronization.h 559-563).
`OnCompletion` (callback subscription) is not modelled; `BlockingCounter` and `FiberBlockingCounter` forward to this class.
-/
namespace Verif.BlockingCounter
open Verif.Common Verif.EventCount

/-- `kCancelFlag` (event_count.h 171). -/
def flag : Nat := 2 ^ 63

/-- `count_` (event_count.h 219) as a 64 bit word. The other fields are history, never read by the code: the initial count plus
everything added, the number of `Dec` calls, whether `Cancel` was called, all since construction or the last `Start`. -/
structure G where
  cnt : Nat
  added : Nat
  decs : Nat
  canc : Bool

inductive Op
  | add (n : Nat)
  | dec
  | cancel
  | start (n : Nat)

/-- `WaitCondition` (event_count.h 174-179): the value read, when it is zero or has the cancel flag. -/
def test (_ : Unit) (g : G) : Option (Nat × G) :=
  if g.cnt = 0 ∨ flag ≤ g.cnt then some (g.cnt, g) else none

/-- `Add` (event_count.h 201-203), `Dec` (synchronization.cc 134-139), `Cancel` (141-144), `Start` (129-132). One atomic
read-modify-write each; the Bool says whether `notifyAll` follows. Usage rules of the class are guards on the count without the
cancel flag: a `Dec` needs a count above zero (compare the DCHECK of `Dec`; `C22_dec_allowed` says this is "fewer `Dec` than
added"), the count stays below 2^63, `Start` needs a zero count (the DCHECK of `Start`). -/
def op (o : Op) (g : G) : Option (G × Bool) :=
  match o with
  | .add n => if g.cnt % flag + n < flag then
      some ({ g with cnt := (g.cnt + n) % 2 ^ 64, added := g.added + n }, false) else none
  | .dec => if 0 < g.cnt % flag then
      some ({ g with cnt := (g.cnt + (2 ^ 64 - 1)) % 2 ^ 64, decs := g.decs + 1 }, g.cnt == 1) else none
  | .cancel => some ({ g with cnt := if g.cnt < flag then g.cnt + flag else g.cnt, canc := true }, true)
  | .start n => if g.cnt % flag = 0 ∧ n < 2 ^ 32 then some ({ cnt := n, added := n, decs := 0, canc := false }, false) else none

/-- `Wait`, `WaitUntil`, `WaitFor` are `await` / `await_until` on the condition; `Dec` and `Cancel` use `notifyAll`. -/
def mon : Mon G Unit Nat Op := { test, op, all := true }

/-- Freshly constructed with a start count (event_count.h 182). -/
def Fresh (g : G) : Prop := ∃ n, n < 2 ^ 32 ∧ g = { cnt := n, added := n, decs := 0, canc := false }

abbrev St := State G (MPc Unit Nat)
abbrev Chc := MCh Unit Op

/-- Result of `Wait` (synchronization.h 559-563) and `WaitUntil` (.cc 123-127) from what `await` / `await_until` left:
`none` = timeout, otherwise the value read last. -/
def result : Option Nat → Bool
  | none => false
  | some v => v < flag

end Verif.BlockingCounter
