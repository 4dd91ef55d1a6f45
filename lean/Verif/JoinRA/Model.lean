import Verif.RelAcq.Lemmas
/-!
`FiberInterface::Terminate` and `FiberInterface::Join` (util/fibers/detail/fiber_interface.cc 286-312, 369-397) over the memory of C++ threads (`Verif.RelAcq`), with the
memory orders of the code: one fiber that ends, on thread 0, and any number of fibers on other threads that join it (fiber `i` is on thread `i + 1`).

The fiber writes some non-atomic data; whoever has joined it reads that data. `join_q_` is a second non-atomic location, guarded by `kBusyBit`. Simplifications: a fiber that is taken from
`join_q_` and resumed is synchronised with the fiber that ended (`ActivateOther`; C89 has the queue it goes through); the bit `kScheduleRemote` of the same word, which other threads set and
clear, is left out but for the fact that they are read-modify-writes (`other`); the lifetime of the fiber (see C31 and `Verif.Join`).
-/
namespace Verif.JoinRA
open Verif.Common Verif.RelAcq

/-- `flags_`; what the fiber writes; `join_q_`. -/
inductive Loc
  | flags | data | q
  deriving DecidableEq

/-- `termRel`: the `fetch_or` of `Terminate` (297) with release too. `relRel`: the `fetch_and` of a `Join` that returns at once (379) with release. -/
structure Cfg where
  termRel : Bool
  relRel : Bool

/-- The code: acquire only in 297, relaxed in 379. -/
def theCode : Cfg := ⟨false, false⟩

/-- The fiber: running; in the loop of `Terminate` (294-302), with its bit set; has `kBusyBit`; has notified, still has `kBusyBit`; done. -/
inductive FPc
  | run | spin | own | clr | done
  deriving DecidableEq

/-- A fiber that joins: outside of `Join` or in its loop (375-388); has `kBusyBit`; has linked its waiter, still has `kBusyBit`; has `kBusyBit` but need not wait (379); suspended; `Join` has
returned. -/
inductive JPc
  | idle | own | clr | rel | sleep | ret
  deriving DecidableEq

/-- `v | kBusyBit`, where `kTerminatedBit` is 1 and `kBusyBit` is 2 -/
def orB (v : Nat) : Nat := if v / 2 % 2 = 0 then v + 2 else v

/-- `v | kTerminatedBit | kBusyBit` -/
def orTB (v : Nat) : Nat := orB (if v % 2 = 0 then v + 1 else v)

/-- `v & ~kBusyBit` -/
def clearB (v : Nat) : Nat := if v / 2 % 2 = 0 then v else v - 2

/-- `top` (history): the last message of `flags_`. `seen`: someone has read the data. `race`: accesses to the data raced. `raceQ`: accesses to `join_q_` raced. -/
structure State where
  f : FPc
  th : List JPc
  m : Mem Loc
  top : Nat := 0
  seen : Bool := false
  race : Bool := false
  raceQ : Bool := false

inductive Act
  | write | term (ts : Nat) | notify | clr0 (ts : Nat)
  | join (i ts : Nat) | link (i : Nat) | clr (i ts : Nat) | rel (i ts : Nat) | read (i : Nat) | leave (i : Nat)
  | other (t ts : Nat)
  deriving DecidableEq

/-- The fiber runs. -/
def doWrite (s : State) : State :=
  { s with m := s.m.touch 0 .data, race := s.race || !s.m.clear 0 .data || s.seen }

/-- 297-301 -/
def doTerm (c : Cfg) (s : State) (ts : Nat) : Option State :=
  match s.m.rmw 0 .flags orTB true c.termRel ts with
  | none => none
  | some (v, m) => some { s with m := m, top := ts + 1, f := if v / 2 % 2 = 0 then .own else .spin }

def JPc.wake : JPc → JPc
  | .sleep => .ret
  | p => p

/-- `join_q_.NotifyAll` (305): the sleeping fibers resume, with what the fiber has done in their views. -/
def doNotify (s : State) : State :=
  { s with
    raceQ := s.raceQ || !s.m.clear 0 .q
    m := { s.m.touch 0 .q with cur := fun t => if t ≠ 0 ∧ s.th[t - 1]? = some .sleep then join ((s.m.touch 0 .q).cur t) ((s.m.touch 0 .q).cur 0) else (s.m.touch 0 .q).cur t }
    th := s.th.map JPc.wake
    f := .clr }

/-- 307 -/
def doClr0 (s : State) (ts : Nat) : Option State :=
  match s.m.rmw 0 .flags clearB false true ts with
  | none => none
  | some (_, m) => some { s with m := m, top := ts + 1, f := .done }

/-- Where the `fetch_or` (376-386) leads. -/
def afterOr (v : Nat) : JPc :=
  if v % 2 = 1 then (if v / 2 % 2 = 0 then .rel else .ret) else if v / 2 % 2 = 0 then .own else .idle

def doJoin (s : State) (i ts : Nat) : Option State :=
  match s.m.rmw (i + 1) .flags orB true false ts with
  | none => none
  | some (v, m) => some { s with m := m, top := ts + 1, th := s.th.set i (afterOr v) }

/-- `join_q_.Link` (390-391) -/
def doLink (s : State) (i : Nat) : State :=
  { s with m := s.m.touch (i + 1) .q, raceQ := s.raceQ || !s.m.clear (i + 1) .q, th := s.th.set i .clr }

/-- A `fetch_and` (379, 392) -/
def doClr (s : State) (i ts : Nat) (r : Bool) (p : JPc) : Option State :=
  match s.m.rmw (i + 1) .flags clearB false r ts with
  | none => none
  | some (_, m) => some { s with m := m, top := ts + 1, th := s.th.set i p }

/-- After `Join`: the data is read. -/
def doRead (s : State) (i : Nat) : State := { s with seen := true, race := s.race || !s.m.clear (i + 1) .data }

/-- A change of another bit (scheduler.cc 297, 312, 419), taken as relaxed. -/
def doOther (s : State) (t ts : Nat) : Option State :=
  match s.m.rmw t .flags id false false ts with
  | none => none
  | some (_, m) => some { s with m := m, top := ts + 1 }

def step (c : Cfg) (s : State) : Act → Option State
  | .write => if s.f = .run then some (doWrite s) else none
  | .term ts => if s.f = .run ∨ s.f = .spin then doTerm c s ts else none
  | .notify => if s.f = .own then some (doNotify s) else none
  | .clr0 ts => if s.f = .clr then doClr0 s ts else none
  | .join i ts => if s.th[i]? = some .idle then doJoin s i ts else none
  | .link i => if s.th[i]? = some .own then some (doLink s i) else none
  | .clr i ts => if s.th[i]? = some .clr then doClr s i ts true .sleep else none
  | .rel i ts => if s.th[i]? = some .rel then doClr s i ts c.relRel .ret else none
  | .read i => if s.th[i]? = some .ret then some (doRead s i) else none
  | .leave i => if s.th[i]? = some .ret then some { s with th := s.th.set i .idle } else none
  | .other t ts => doOther s t ts

/-- The fiber runs, nobody has joined it. -/
def startOf (n : Nat) : State := { f := .run, th := List.replicate n .idle, m := Mem.start (fun _ => 0) }

def Init (s : State) : Prop := ∃ n, s = startOf n

end Verif.JoinRA
