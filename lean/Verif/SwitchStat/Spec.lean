import Verif.SwitchStat.Model
/-!
# What happened, read from the history (newest event first)
-/
namespace Verif.SwitchStat

/-- The time of the last event. -/
def last (t0 : Nat) : List Ev → Nat
  | [] => t0
  | .ready _ t :: _ => t
  | .switch _ t :: _ => t
  | .wake t :: _ => t

/-- The fiber that runs. -/
def who : List Ev → Nat
  | [] => 0
  | .switch f _ :: _ => f
  | _ :: h => who h

/-- Since when it runs; time spent waiting for I/O does not count. -/
def since (t0 : Nat) : List Ev → Nat
  | [] => t0
  | .switch _ t :: _ => t
  | .wake t :: _ => t
  | .ready _ _ :: h => since t0 h

/-- When `f` became ready. -/
def readyAt (t0 f : Nat) : List Ev → Nat
  | [] => t0
  | .ready g t :: h => if g = f then t else readyAt t0 f h
  | _ :: h => readyAt t0 f h

/-- The lengths of the runs that have ended. -/
def runs (t0 : Nat) : List Ev → List Nat
  | [] => []
  | .switch _ t :: h => (t - since t0 h) :: runs t0 h
  | _ :: h => runs t0 h

/-- For each switch, how long the fiber had been ready. -/
def waits (t0 : Nat) : List Ev → List Nat
  | [] => []
  | .switch f t :: h => (t - readyAt t0 f h) :: waits t0 h
  | _ :: h => waits t0 h

/-- The fibers that were suspended, newest first. -/
def suspended : List Ev → List Nat
  | [] => []
  | .switch _ _ :: h => who h :: suspended h
  | _ :: h => suspended h

/-- The same since the thread last came back from waiting. -/
def recent : List Ev → List Nat
  | [] => []
  | .wake _ :: _ => []
  | .switch _ _ :: h => who h :: recent h
  | .ready _ _ :: h => recent h

/-- The cycle counter increases from event to event and fits 64 bits; the thread does not switch to the
fiber that runs. -/
def Valid (t0 : Nat) : List Ev → Prop
  | [] => t0 < 2 ^ 64
  | e :: h => last t0 h < last t0 (e :: h) ∧ last t0 (e :: h) < 2 ^ 64 ∧
      (∀ f t, e = .switch f t → f ≠ who h) ∧ Valid t0 h

end Verif.SwitchStat
