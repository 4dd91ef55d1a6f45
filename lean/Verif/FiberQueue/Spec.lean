import Verif.FiberQueue.Model
/-!
# Vocabulary of the FiberQueue properties
-/
namespace Verif.FiberQueue
open Verif.Common Verif.EventCount Verif.Channel
variable {α : Type}

abbrev St (α : Type) := State (G α) (Pc α)

/-- Inside `Add` or `TryAdd`. -/
def Adding : Pc α → Bool
  | .push _ _ | .pub _ _ _ | .ntfPull _ | .pDrop | .pPrep _ | .pWait _ | .pDropL _ => true
  | _ => false

/-- Inside `Run`. -/
def Running : Pc α → Bool
  | .rTry _ | .rRel _ _ _ | .rCls _ _ | .rPrep | .rWait _ | .rDropL | .rDrop _ | .rDropC | .rMore _ | .rRel2 _ _ _ | .rNtf _ | .rExec _ => true
  | _ => false

/-- Fiber `t` is in control state `l`. -/
def At (s : St α) (t : Nat) (l : Pc α) : Prop := ∃ x, s.th[t]? = some x ∧ x.cl = l

/-- The rule of the class comment (18-22): one consumer loop at a time. -/
def OneRunner (s : St α) : Prop :=
  ∀ t u l m, At s t l → At s u m → Running l = true → Running m = true → t = u

/-- `Run` sleeps. -/
def RunBlocked (s : St α) (t : Nat) : Prop := ∃ x i tm h, s.th[t]? = some x ∧ x.ep = .asleep i tm ∧ x.cl = .rWait h

/-- An `Add` sleeps. -/
def AddBlocked (s : St α) (t : Nat) : Prop := ∃ x i tm v, s.th[t]? = some x ∧ x.ep = .asleep i tm ∧ x.cl = .pWait v

/-- Inside `Shutdown`, past the store and not past the `notifyAll`. -/
def Closing (s : St α) (t : Nat) : Prop := At s t .cNtf

/-- Inside `Add` or `TryAdd`, past the publication of the task and not past the `notify`. -/
def Announcing (s : St α) (t : Nat) : Prop := ∃ m, At s t (.ntfPull m)

/-- `Run` is collecting a batch, before its `notifyAll` to the adders. -/
def Draining (s : St α) (t : Nat) : Prop :=
  ∃ l, At s t l ∧ ((∃ b p v, l = .rRel b p v) ∨ (∃ ts, l = .rDrop ts ∨ l = .rMore ts ∨ l = .rNtf ts) ∨ ∃ ts p v, l = .rRel2 ts p v)

def Readable (g : G α) : Prop := ∃ v, g.q.cell g.q.head = some v
def HasRoom (g : G α) : Prop := g.q.room g.q.tail = true

/-- No fiber is inside an operation, except those asleep in it. -/
def Quiet (s : St α) : Prop := ∀ t l, At s t l → l = .idle ∨ RunBlocked s t ∨ AddBlocked s t

/-- No task is being added after `Shutdown` (53: "Should not be called after calling Shutdown()"), nor while `Run` is between
a failed dequeue and its look at `is_closed_`. -/
def Calm (s : St α) : Prop :=
  (s.g.closed = true ∨ ∃ t b h, At s t (.rCls b h)) → ∀ t l, At s t l → Adding l = false

end Verif.FiberQueue
