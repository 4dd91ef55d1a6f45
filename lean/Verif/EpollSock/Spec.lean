import Verif.EpollSock.Model

/-!
# What users of a socket rely on

Everything here is about what can be seen (`Obs`), and about the state of the kernel socket and of the
fibers.
-/
namespace Verif.EpollSock

/-- A read would not block: there are bytes, an end of file or an error to report. -/
def Readable (s : S) : Prop := s.rx ≠ [] ∨ s.eof = true ∨ s.shutRd = true ∨ s.err = true

/-- A write would not block: there is room, or an error to report. -/
def Writable (s : S) : Prop :=
  (s.conn = true ∧ 0 < s.room) ∨ (s.conn = true ∧ s.shutWr = true) ∨ s.err = true

/-- The one rule for callers that the code does not check: no receive hook is registered while a
fiber is inside `Recv`. -/
def Contract (s : S) : Act → Prop
  | .regHook _ => s.r = .idle
  | _ => True

instance (s : S) (a : Act) : Decidable (Contract s a) := by
  cases a <;> unfold Contract <;> infer_instance

/-- A step of a caller who keeps to the rule. -/
def cstep (s : S) (a : Act) : Option (List Obs × S) := if Contract s a then step s a else none

/-- A history of such steps that runs into no failed CHECK. -/
abbrev crun := Common.run cstep

/-- A fresh socket: just made, or just accepted with room to send. -/
inductive Start : S → Prop
  | fresh (uds) : Start (S.fresh uds)
  | accepted (uds room) : Start (S.accepted uds room)

/-- The calls that pass the CHECKs of the code: one reader, one writer, no reader beside a hook, an
open descriptor. -/
def Allowed (s : S) : Act → Prop
  | .recv _ => s.opened = true ∧ s.r = .idle ∧ s.hookReg = false
  | .write _ => s.opened = true ∧ s.w = .idle ∧ s.apend = false
  | .asyncWrite _ _ => s.w = .idle ∧ s.apend = false
  | .regHook _ => s.opened = true ∧ s.r = .idle ∧ s.hookReg = false
  | .regErr _ => s.errorCb = none
  | .connect _ => s.opened = false ∧ s.r = .idle ∧ s.w = .idle ∧ s.hookReg = false
  | _ => True

/-- The bytes that arrived. -/
def arrivedOf : List Obs → List Nat
  | [] => []
  | .arrived bs :: l => bs ++ arrivedOf l
  | _ :: l => arrivedOf l

/-- The bytes returned to callers of `Recv` and `TryRecv`. -/
def recvdOf : List Obs → List Nat
  | [] => []
  | .recvd bs :: l => bs ++ recvdOf l
  | .tryRecvd bs :: l => bs ++ recvdOf l
  | _ :: l => recvdOf l

/-- The data of the last `WriteSome`, after the step `a`. -/
def curAfter (cur : Option (List Nat)) : Act → Option (List Nat)
  | .write d => some d
  | _ => cur

/-- The results of blocking writes, along a history. `cur` is the data of the last `WriteSome`. The
kernel takes bytes for a blocking write exactly when it returns a count, and they are that many first
bytes of the data. -/
def WritesOk : Option (List Nat) → List (Act × List Obs) → Prop
  | _, [] => True
  | cur, (a, o) :: l =>
    let cur' := curAfter cur a
    (∀ bs, .wire .write bs ∈ o → ∃ d n, cur' = some d ∧ n ≤ d.length ∧ bs = d.take n ∧ .wrote n ∈ o) ∧
    (∀ n, .wrote n ∈ o → ∃ d, cur' = some d ∧ n ≤ d.length ∧ .wire .write (d.take n) ∈ o) ∧
    WritesOk cur' l

/-- The data given to the asynchronous write with callback `c`. -/
def issuedOf (c : Nat) : List Obs → List (List Nat)
  | [] => []
  | .issued c' d :: l => if c' = c then d :: issuedOf c l else issuedOf c l
  | _ :: l => issuedOf c l

/-- The calls of callback `c`. -/
def doneOf (c : Nat) : List Obs → List (Except EKind Nat)
  | [] => []
  | .done c' r :: l => if c' = c then r :: doneOf c l else doneOf c l
  | _ :: l => doneOf c l

/-- What the kernel took for the asynchronous write with callback `c`. -/
def wireOf (c : Nat) : List Obs → List (List Nat)
  | [] => []
  | .wire (.async c') bs :: l => if c' = c then bs :: wireOf c l else wireOf c l
  | _ :: l => wireOf c l

/-- How often error callback `c` was called. -/
def errsOf (c : Nat) : List Obs → Nat
  | [] => 0
  | .errCb c' :: l => if c' = c then errsOf c l + 1 else errsOf c l
  | _ :: l => errsOf c l

end Verif.EpollSock
