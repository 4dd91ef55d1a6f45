import Verif.MpscRA.Model
/-! Words for C89. -/
namespace Verif.MpscRA
open Verif.Common Verif.RelAcq

/-- States that can be reached when the accesses have the orders `c`. -/
abbrev Reached (c : Cfg) (s : State) : Prop := Reachable Init (step c) s

/-- Is the message of `tail_` at `ts` that of a push of a client's node? -/
def isPush (m : Mem Loc) (ts : Nat) : Bool := (m.msg .tail ts).any (fun x => x.val != 0)

/-- Pushes among the first `n` messages of `tail_`. -/
def pushes (m : Mem Loc) (n : Nat) : Nat := ((List.range n).filter (isPush m)).length

/-- The number of pushes whose exchange of the tail happens before what the consumer does next. -/
def known (s : State) : Nat := pushes s.m (s.m.cur 0 .tail + 1)

end Verif.MpscRA
