import Verif.FQPool.Model
/-! Words used in the statements of C69. -/
namespace Verif.FQPool
open Verif.Common

/-- Worker `k` has run task `x`. -/
def S.Ran (s : S) (x k : Nat) : Prop := (x, k) ∈ s.ran

/-- The tasks that were put into the queue of worker `k`, and those it has run, in order. -/
def S.queuedAt (s : S) (k : Nat) : List Nat := (s.acc.filter fun p => p.2 == k).map Prod.fst
def S.ranAt (s : S) (k : Nat) : List Nat := (s.ran.filter fun p => p.2 == k).map Prod.fst

/-- Nothing moves by itself: no caller, no worker and no shutdown can go on. New calls are possible. -/
def S.Still (s : S) : Prop := (∀ c, step s (.caller c) = none) ∧ (∀ k, step s (.worker k) = none) ∧ step s .sd = none

/-- Worker `k` has room for a task. -/
def S.room (s : S) (k : Nat) : Prop := ∃ w, s.ws[k]? = some w ∧ w.q.length < s.cap

/-- Caller `c` is inside `Add`, asleep, and cannot go on. -/
def S.Asleep (s : S) (c : Nat) : Prop := (∃ k x e aw, s.cs[c]? = some (.sleep k x e aw)) ∧ step s (.caller c) = none

/-- Worker `k` is asleep for want of tasks. -/
def S.Idle (s : S) (k : Nat) : Prop := (∃ w e, s.ws[k]? = some w ∧ w.pc = .sleep e ∧ w.q = []) ∧ step s (.worker k) = none

end Verif.FQPool
