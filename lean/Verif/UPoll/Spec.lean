import Verif.UPoll.Model
/-!
# What users of polls rely on

Everything is about the log of what happens: which callback is called when, with which events, and when the calls that
stop it begin and return.
-/
namespace Verif.UPoll

/-- In history `l`, `a` happens and later `b` happens. -/
def Before (l : List Ev) (a b : Ev) : Prop := ∃ l1 l2 l3, l = l1 ++ a :: (l2 ++ b :: l3)

/-- Request `r` polls for error callback `w`. -/
def PollsFor (s : S) (r w : Nat) : Prop := ∃ q, s.reqs[r]? = some q ∧ q.kind = .err w

/-- Request `r` polls for epoll entry `e`. -/
def PollsEntry (s : S) (r e : Nat) : Prop := ∃ q, s.reqs[r]? = some q ∧ q.kind = .ent e

/-- Request `r` was not completed for good. -/
def Pending (s : S) (r : Nat) : Prop := ∃ q, s.reqs[r]? = some q ∧ q.stage ≠ .gone

/-- The request the kernel takes next removes the poll of error callback `w`. -/
def RemovesErr (s : S) (w : Nat) : Prop := ∃ p rest q t, s.sq = p :: rest ∧ s.reqs[p]? = some q ∧ q.kind = .rmErr w t

/-- The request the kernel takes next removes the poll of entry `e`. -/
def RemovesEntry (s : S) (e : Nat) : Prop := ∃ p rest q t, s.sq = p :: rest ∧ s.reqs[p]? = some q ∧ q.kind = .rmEnt e t

end Verif.UPoll
