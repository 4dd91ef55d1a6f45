import Verif.Periodic.Model
/-!
# What users of periodic tasks rely on

Everything is about the log of what happens: when tasks are added, when their timers expire, when they are called, when
`CancelPeriodic` is called and returns, and when the record of a task is deleted.
-/
namespace Verif.Periodic

/-- In history `l`, `a` happens and later `b` happens. -/
def Before (l : List Ev) (a b : Ev) : Prop := ∃ l1 l2 l3, l = l1 ++ a :: (l2 ++ b :: l3)

/-- Task `i` was added and `CancelPeriodic` was not called for it. -/
def Registered (l : List Ev) (i : Nat) : Prop := .added i ∈ l ∧ .cancelStart i ∉ l

/-- How many timers task `i` has: submitted, in the kernel, completed, or to be submitted again at the end of this round. -/
def timers (s : S) (i : Nat) : Nat :=
  s.sq.countP (fun e => decide (e.cb = .timer i)) + s.kt.countP (fun t => decide (t.i = i)) +
    s.cq.countP (fun c => decide (c.cb = .timer i)) + s.plist.count i

/-- What the I/O loop does itself: it processes completions and submits timers again. -/
def Act.loop : Act → Bool
  | .begin | .proc | .drained | .resch _ | .finish => true
  | _ => false

/-- The kernel has taken the removal that call `f` of `CancelPeriodic` submitted. -/
def Taken (s : S) (f : Nat) : Prop := ∀ e ∈ s.sq, e.cb ≠ .remove f

end Verif.Periodic
