import Verif.Sched.Model

/-!
# What happened during a timed wait

Read off the history only: `mid` is what happened between a fiber's call of `WaitUntil` and its return.
-/
namespace Verif.Sched

/-- The first thing that ended the wait of `f`: its timer (`some true`) or a notification by a fiber of
the same thread (`some false`). -/
def firstWake (f : Nat) : List Ev → Option Bool
  | [] => none
  | .fired g _ :: l => if g = f then some true else firstWake f l
  | .notify g false :: l => if g = f then some false else firstWake f l
  | _ :: l => firstWake f l

/-- The fiber was notified, by whichever thread. -/
def notified (f : Nat) (mid : List Ev) : Prop := ∃ r, Ev.notify f r ∈ mid

/-- No call of `WaitUntil` by `f` begins or ends in `mid`. -/
def noWait (f : Nat) (mid : List Ev) : Prop := (∀ d, Ev.wait f d ∉ mid) ∧ (∀ b, Ev.ret f b ∉ mid)

end Verif.Sched
