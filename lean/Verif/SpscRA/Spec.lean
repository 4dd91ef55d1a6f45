import Verif.SpscRA.Model
/-! Words for C87. -/
namespace Verif.SpscRA
open Verif.Common Verif.RelAcq
variable {α : Type}

/-- States that can be reached when the accesses have the orders `c`. -/
abbrev Reached (c : Cfg) (s : State α) : Prop := Reachable Init (step c) s

/-- The consumer knows that at least `n` records were written: every message of `writeIndex_` that it may still read was stored
at the `n`th write or later (so the `n`th write happens before what it does next, or it has seen it). -/
def ConsumerKnows (s : State α) (n : Nat) : Prop := ∀ ts m, s.m.msg .w ts = some m → s.m.cur 0 .w ≤ ts → n ≤ s.wN ts

/-- The producer knows that at least `n` records were taken. -/
def ProducerKnows (s : State α) (n : Nat) : Prop := ∀ ts m, s.m.msg .r ts = some m → s.m.cur 1 .r ≤ ts → n ≤ s.rN ts

end Verif.SpscRA
