import Verif.WakeRA.Model
/-! Words for C86. -/
namespace Verif.WakeRA
open Verif.Common

abbrev Reached (c : Cfg) : State → Prop := Reachable (· = start) (step c)

/-- No call that puts a task is under way. -/
def Quiet (s : State) : Prop := ∀ t, s.ppc t = .idle

/-- The proactor waits and nothing will end the wait: no event is there and no thread will send one. -/
def Asleep (s : State) : Prop := s.cpc = .wait ∧ s.tok = 0 ∧ Quiet s

/-- All tasks put so far have been taken. -/
def AllTaken (s : State) : Prop := s.pos = s.next

/-- The announcement of task `k` (its addition to `tq_seq_`) comes before the last reset of `tq_seq_` in the order of the writes to it. -/
def Overwritten (s : State) (k : Nat) : Prop := ∃ a, s.addAt k = some a ∧ a < s.base

end Verif.WakeRA
