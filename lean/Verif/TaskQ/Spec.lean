import Verif.TaskQ.Model
/-!
# Vocabulary of the dispatch properties
-/
namespace Verif.TaskQ
open Common

/-- Everything that can happen with queues of `cap` tasks. -/
def Reaches (cap : Nat) (s : S) : Prop := Reachable (fun t => t = {}) (step cap) s

/-- What can happen from a state on. -/
def From (cap : Nat) (s s' : S) : Prop := Reachable (fun t => t = s) (step cap) s'

/-- Call `t` of `DispatchBrief` to proactor `p`, made by `i`, has returned. -/
def Returned (s : S) (i p t : Nat) : Prop := ∃ w, s.th i = .done p t w

/-- Call `t` of `DispatchBrief` to proactor `p`, made by `i`, is going on. -/
def Ongoing (s : S) (i p t : Nat) : Prop :=
  s.th i = .first p t ∨ s.th i = .prep p t ∨ (∃ e, s.th i = .retry p t e) ∨ (∃ e, s.th i = .wait p t e) ∨ s.th i = .asleep p t

end Verif.TaskQ
