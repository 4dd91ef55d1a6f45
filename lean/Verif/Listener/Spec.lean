import Verif.Listener.Model
/-! The words in which the properties of the listener are stated. -/
namespace Verif.Listener

/-- The number of connections that are open: accepted and not yet at the end of their fiber. -/
def S.open (s : S) : Nat := s.conns.countP fun x => decide (x.pc ≠ .gone)

/-- One page of the list `l`: up to `limit` connections beginning with `frm`, or with the first one if `frm` is null, and
the connection that follows them. -/
def page (l : List Nat) (frm : Option Nat) (limit : Nat) : List Nat × Option Nat :=
  let rest := match frm with
    | none => l
    | some c => l.dropWhile fun x => decide (x ≠ c)
  (rest.take limit, rest[limit]?)

/-- Connection `c` is in the list of thread `t`. -/
def S.linked (s : S) (c t : Nat) : Prop := ∃ l, s.lists t = some l ∧ c ∈ l

/-- Traversal `k` runs its callbacks. -/
def S.visiting (s : S) (k : Nat) : Prop := ∃ r cur, s.trs[k]? = some r ∧ r.pc = .visiting cur
/-- Traversal `k` has begun and not ended. -/
def S.traversing (s : S) (k : Nat) : Prop := ∃ r, s.trs[k]? = some r ∧ (r.pc = .waiting ∨ ∃ cur, r.pc = .visiting cur)

/-- The connection is between two lists, or passed the gate and has not left it yet. -/
def Conn.moving (x : Conn) : Prop := (∃ d, x.pc = .mgHeld d) ∨ (∃ d, x.pc = .transit d) ∨ x.pc = .mgOut
/-- The connection is at the gate: moving, or about to take back an attempt. -/
def Conn.atGate (x : Conn) : Prop := x.moving ∨ ∃ d, x.pc = .mgBack d

/-- `a` before `b` in the log. -/
def Before (l : List Ev) (a b : Ev) : Prop := ∃ l1 l2 l3, l = l1 ++ a :: l2 ++ b :: l3

end Verif.Listener
