import Verif.DirectFd.Model

/-! # Direct descriptors: the client's own table, computed from the results of its calls -/
namespace Verif.DirectFd

/-- The client's table: which descriptor it registered under each index. -/
abbrev Tab := Nat → Option Nat

/-- The effect of a call and its result on the client's table. -/
def note (m : Tab) : Op → Res → Tab
  | .reg fd _, .index (some i) => fun j => if j = i then some fd else m j
  | .unreg i, .fd _ => fun j => if j = i then none else m j
  | _, _ => m

/-- A client only unregisters and translates indices it has registered. -/
def Allowed (m : Tab) : Op → Prop
  | .reg _ _ => True
  | .unreg i => m i ≠ none
  | .get i => m i ≠ none

/-- The call was a registration the kernel refused. -/
def refused : Op → Bool
  | .reg _ ok => !ok
  | _ => false

/-- States reachable by an allowed client, with the client's table and whether the kernel ever refused. -/
inductive Reach (n : Nat) : R → Tab → Bool → Prop
  | init : Reach n (R.init n) (fun _ => none) false
  | step {r r' : R} {m : Tab} {bad : Bool} {op : Op} {o : Res} : Reach n r m bad → Allowed m op →
      step r op = some (o, r') →
      Reach n r' (note m op o) (bad || refused op)

end Verif.DirectFd
