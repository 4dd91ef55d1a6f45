import Verif.RecvHook.Model
/-!
# What a user of the receive hook sees
-/
namespace Verif.RecvHook

/-- The data in the notifications of callback `cb`, in order. -/
def given (cb : Nat) : List (Nat × Note) → List Nat
  | [] => []
  | (c, .data b) :: l => if c = cb then b ++ given cb l else given cb l
  | _ :: l => given cb l

/-- The data the kernel received for `cb`, in order. -/
def received (cb : Nat) : List (Nat × List Nat) → List Nat
  | [] => []
  | (c, b) :: l => if c = cb then b ++ received cb l else received cb l

/-- The notifications that end a registration: closed or an error. -/
def isEnd : Note → Bool
  | .data _ => false
  | _ => true

/-- How many times `cb` was told the end. -/
def ends (cb : Nat) (l : List (Nat × Note)) : Nat := l.countP (fun e => e.1 == cb && isEnd e.2)

/-- What of the present completion is still to be passed to `cb`. -/
def rest (cb : Nat) : Option Cur → List Nat
  | some c => if c.cb = cb then c.segs.flatten else []
  | none => []

/-- A request of `cb` that has to be made again after the present completion. -/
def again (cb : Nat) : Option Cur → Nat
  | some c => if c.cb = cb ∧ c.more = false then 1 else 0
  | none => 0

end Verif.RecvHook
