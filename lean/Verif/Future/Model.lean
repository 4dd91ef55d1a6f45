import Verif.EventCount.Monitor
/-!
`util::fb2::Future` (util/fibers/future.h 17-62) and `util::fb2::Done` (util/fibers/synchronization.h 188-271).
The shared block is reference counted (`shared_ptr`, `intrusive_ptr`); its lifetime is not modelled.
-/
namespace Verif.Future
open Verif.Common Verif.EventCount

/-! ## Future -/

/-- `Block` (future.h 54-58). `value = none` is the default-constructed or moved-from value. History: `args` are the arguments of
the `Resolve` calls that wrote the value, `pub` says that `Resolve` stored the flag, `log` are the values handed out by the getters. -/
structure Blk (α : Type) where
  value : Option α := none
  has : Bool := false
  args : List α := []
  pub : Bool := false
  log : List (Option α) := []

/-- The two halves of `Resolve` (future.h 44-48): the assignment of the value, and the store of the flag, which is followed by
`notify`. Any fiber may do the second half, which allows more interleavings than the code. -/
inductive FOp (α : Type)
  | write (v : α)
  | publish

/-- The usage rule: `Resolve` is called once. -/
def fOp {α : Type} (o : FOp α) (b : Blk α) : Option (Blk α × Bool) :=
  match o with
  | .write v => if b.args.isEmpty then some ({ b with value := some v, args := [v] }, false) else none
  | .publish => if b.args.isEmpty = false ∧ b.pub = false then some ({ b with has := true, pub := true }, true) else none

/-- `Get` / `GetFor` test with `exchange(false)` (future.h 22-26, 36-43); `GetRef` tests with a load (31-34). -/
def fTest {α : Type} (ref : Bool) (_ : Unit) (b : Blk α) : Option (Unit × Blk α) :=
  if b.has then some ((), if ref then b else { b with has := false }) else none

/-- After `await`: `Get` moves the value out, `GetRef` reads it (future.h 25, 33, 42). -/
def fPost {α : Type} (ref : Bool) (_ : Unit) (_ : Unit) (b : Blk α) : Blk α :=
  { b with log := b.log ++ [b.value], value := if ref then b.value else none }

/-- A future whose consumers all use `GetRef` (`ref = true`), or all use `Get` / `GetFor`. (The class forbids mixing them,
future.h 29-30.) -/
def futMon (α : Type) (ref : Bool) : Mon (Blk α) Unit Unit (FOp α) :=
  { test := fTest ref, op := fOp, post := fPost ref, all := false }

/-! ## Done -/

inductive Ev
  | notify
  | reset
  deriving DecidableEq

/-- `Done::Impl` (synchronization.h 215-266). `hist` is history: the stores to `ready_`, in order. -/
structure Dn where
  ready : Bool := false
  hist : List Ev := []

/-- `Notify` (247-250) and `Reset` (252-254). -/
def dOp (o : Ev) (d : Dn) : Option (Dn × Bool) :=
  match o with
  | .notify => some ({ ready := true, hist := d.hist ++ [.notify] }, true)
  | .reset => some ({ ready := false, hist := d.hist ++ [.reset] }, false)

/-- The condition of `Wait` and `WaitFor` (232, 240-241). -/
def dTest (_ : Bool) (d : Dn) : Option (Unit × Dn) := if d.ready then some ((), d) else none

/-- `Wait(AND_RESET)` clears the flag after `await` returned (233-234). -/
def dPost (rst : Bool) (_ : Unit) (d : Dn) : Dn :=
  if rst then { ready := false, hist := d.hist ++ [.reset] } else d

/-- `Done`: waiting operation `rst` is `Wait(AND_RESET)` if true, `Wait()` or `WaitFor` otherwise. -/
def doneMon : Mon Dn Bool Unit Ev := { test := dTest, op := dOp, post := dPost, all := false }

end Verif.Future
