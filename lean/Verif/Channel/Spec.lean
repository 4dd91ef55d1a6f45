import Verif.Channel.Model
/-!
# Vocabulary of the channel properties
-/
namespace Verif.Channel
open Verif.Common Verif.EventCount
variable {α : Type}

/-- Inside `Push` or `TryPush`. -/
def Pushing : Pc α → Bool
  | .push _ _ | .pub _ _ _ | .ntfPop _ | .pDrop | .pPrep _ | .pWait _ _ | .pDropL _ => true
  | _ => false

/-- Inside `Pop` or `TryPop`. -/
def Popping : Pc α → Bool
  | .pop _ | .rel _ _ _ | .ntfPush _ _ | .qDrop _ | .qPrep | .qChk _ | .qWait _ | .qDropL => true
  | _ => false

/-- Fiber `t` is in control state `l`. -/
def At (s : State (G α) (Pc α)) (t : Nat) (l : Pc α) : Prop := ∃ x, s.th[t]? = some x ∧ x.cl = l

/-- Fiber `t` sleeps inside `Pop`. -/
def PopBlocked (s : State (G α) (Pc α)) (t : Nat) : Prop :=
  ∃ x i tm h, s.th[t]? = some x ∧ x.ep = .asleep i tm ∧ x.cl = .qWait h

/-- Fiber `t` sleeps inside `Push`. -/
def PushBlocked (s : State (G α) (Pc α)) (t : Nat) : Prop :=
  ∃ x i tm v k, s.th[t]? = some x ∧ x.ep = .asleep i tm ∧ x.cl = .pWait v k

/-- Fiber `t` is inside `StartClosing`, past the increment and not past the `notifyAll`. -/
def Closing (s : State (G α) (Pc α)) (t : Nat) : Prop := At s t .cNtf

/-- Fiber `t` is inside `Push` or `TryPush`, past the publication of its item and not past the `notify`. -/
def Announcing (s : State (G α) (Pc α)) (t : Nat) : Prop := ∃ m, At s t (.ntfPop m)

/-- Fiber `u` has taken the sleeper `t` off the queue of event count `i` and is about to make it runnable. -/
def Waking (s : State (G α) (Pc α)) (i u t : Nat) : Prop := ∃ x all, s.th[u]? = some x ∧ x.ep = .nAct i all t

/-- A dequeue would succeed: the item at the head of the queue is published. -/
def Readable (g : G α) : Prop := ∃ v, g.q.cell g.q.head = some v

/-- An enqueue would succeed. -/
def HasRoom (g : G α) : Prop := g.q.room g.q.tail = true

def OneConsumer (s : State (G α) (Pc α)) : Prop :=
  ∀ t u l m, At s t l → At s u m → Popping l = true → Popping m = true → t = u

def OneProducer (s : State (G α) (Pc α)) : Prop :=
  ∀ t u l m, At s t l → At s u m → Pushing l = true → Pushing m = true → t = u

/-- The rule of the class comment (28-30, 119-120): when the last producer calls `StartClosing`, all pushes are done. -/
def Disciplined (s : State (G α) (Pc α)) : Prop :=
  s.g.isClosing = true → ∀ t l, At s t l → Pushing l = false

/-- No fiber is inside an operation, except those asleep in it. -/
def Quiet (s : State (G α) (Pc α)) : Prop :=
  ∀ t l, At s t l → l = .idle ∨ PopBlocked s t ∨ PushBlocked s t

/-- Inside `Push`, with the item `x` not yet in the queue. -/
def Undelivered (x : α) : Pc α → Prop
  | .push .fast y | .push .slow y | .pPrep y | .pWait y _ | .pDropL y => y = x
  | _ => False

/-- Inside `Push`, with the item in the queue. -/
def Delivered : Pc α → Bool
  | .pub .fast _ _ | .pub .slow _ _ | .ntfPop .fast | .ntfPop .slow | .pDrop => true
  | _ => false

end Verif.Channel
