import Verif.Sync.Model
/-!
# What users of `Mutex` and `CondVar` rely on: vocabulary

`hold l` says whether a fiber whose program is in local state `l` has the mutex according to its own
program text: after `lock` returned and before `unlock` is called. `Disc` is the contract of the two
classes: only the holder unlocks and waits, and nobody locks a mutex it already holds.
-/
namespace Verif.Sync
open Verif.Common
variable {G L C : Type}

/-- Clients that follow the contract of `Mutex` and `CondVar::wait`. -/
structure Disc (P : Client G L C) (hold : L → Bool) : Prop where
  loc : ∀ g l t c g' l', P.call l = .loc → P.loc g l t c = some (g', l') → hold l' = hold l
  lock : ∀ l b, P.call l = .lock → hold l = false ∧ hold (P.ret l b) = true
  tryLock : ∀ l b, P.call l = .tryLock → hold (P.ret l b) = (b || hold l)
  unlock : ∀ l b, P.call l = .unlock → hold l = true ∧ hold (P.ret l b) = false
  wait : ∀ l b tm, P.call l = .wait tm → hold l = true ∧ hold (P.ret l b) = true
  notify : ∀ l b all, P.call l = .notify all → hold (P.ret l b) = hold l

/-- The client never uses `wait_until` / `wait_for`. -/
def Untimed (P : Client G L C) : Prop := ∀ l, P.call l ≠ .wait true

/-- The client notifies only while holding the mutex, as synchronization.h 84-95 demands. -/
def NotifyLocked (P : Client G L C) (hold : L → Bool) : Prop := ∀ l all, P.call l = .notify all → hold l = true

/-- The next step of fiber `t` reads or writes the wait queue of the condition variable (or the fiber
is in the middle of a `notify_all` loop over it). -/
def Touches (P : Client G L C) (s : State G L) (t : Nat) : Prop :=
  (s.ep t = .cl ∧ ∃ tm, P.call (s.cl t) = .wait tm) ∨ (∃ out, s.ep t = .post out) ∨ (∃ all any, s.ep t = .nGo all any) ∨
    ∃ w, s.ep t = .nAct true w

/-- Two fibers are about to access the unprotected wait queue at the same time: a data race. -/
def Racing (P : Client G L C) (s : State G L) : Prop := ∃ t u, t < s.n ∧ u < s.n ∧ t ≠ u ∧ Touches P s t ∧ Touches P s u

/-- Does a fiber at this program counter have the mutex, when `h` says whether its program text does? From the
moment `lock` or `try_lock` decides to take it until `unlock` (or `wait`) gives it up. -/
def has (h : Bool) : EPc → Bool
  | .cl | .tAcq | .tCs | .nGo _ _ | .nAct _ _ => h
  | .tRel b => b || h
  | .lRelOk _ | .uAcq _ | .uCs _ | .post _ => true
  | _ => false

/-- Fiber `t` has the mutex. -/
def Has (hold : L → Bool) (s : State G L) (t : Nat) : Prop := has (hold (s.cl t)) (s.ep t) = true

/-- Fiber `t` is executing client code while holding the mutex. -/
def Holds (hold : L → Bool) (s : State G L) (t : Nat) : Prop := s.ep t = .cl ∧ hold (s.cl t) = true

/-- Fiber `t` is blocked on the mutex: it is suspended in `lock`, or in `wait` relocking. -/
def BlockedOnMutex (s : State G L) (t : Nat) : Prop := ∃ k, s.ep t = .lSleep k

/-- Fiber `t` has called `wait` and has not been notified. -/
def Unnotified (s : State G L) (t : Nat) : Prop :=
  (∃ tm, s.ep t = .cSleep tm) ∨
  (s.ntf t = false ∧ ((∃ tm, s.ep t = .uAcq (.wait tm)) ∨ (∃ tm, s.ep t = .uCs (.wait tm)) ∨ (∃ tm, s.ep t = .uNtf (.wait tm)) ∨
    (∃ tm w, s.ep t = .uAct (.wait tm) w) ∨ ∃ tm, s.ep t = .uRel (.wait tm)))

/-- Fiber `t` is runnable and about to attempt to take the mutex. -/
def Retrying (s : State G L) (t : Nat) : Prop := ∃ k, s.ep t = .lWoken k ∨ s.ep t = .lAcq k ∨ s.ep t = .lCs k

/-- Fiber `t` is inside `unlock`, about to wake a queued fiber. -/
def Handing (s : State G L) (t : Nat) : Prop := ∃ k, s.ep t = .uNtf k ∨ ∃ w, s.ep t = .uAct k w

/-- Nothing is going on inside the operations: every fiber is in client code, or suspended. -/
def Quiet (s : State G L) : Prop := ∀ t, s.ep t = .cl ∨ (∃ k, s.ep t = .lSleep k) ∨ ∃ tm, s.ep t = .cSleep tm

end Verif.Sync
