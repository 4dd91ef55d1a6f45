import Verif.RelAcq.Lemmas
import Verif.Mpsc.Model
/-!
`base::MPSCIntrusiveQueue` (base/mpsc_intrusive_queue.h) over the memory of C++ threads (`Verif.RelAcq`), access by access with the memory
orders of the code and of the functions `MPSC_intrusive_store_next` and `MPSC_intrusive_load_next` that the fibers supply for it (util/fibers/detail/
fiber_interface.h 212-219). Program counters, nodes and history are those of `Verif.Mpsc`, which has the same code with sequentially
consistent atomics. The consumer is thread 0 of the memory, producer `t` is thread `t + 1`.

What the pusher wrote into the node before `Push` is one non-atomic location per node: it is written in `push` and read by the consumer when the
node is returned. The client hands a node from thread to thread with synchronisation (`own`: the view that goes along with a node that
belongs to the client): this is the client's duty and is assumed.
-/
namespace Verif.MpscRA
open Verif.Common Verif.RelAcq

/-- `tail_` (34), the link of a node, the contents of a node. -/
inductive Loc
  | tail | next (x : Nat) | data (x : Nat)
  deriving DecidableEq

/-- The memory orders: `store_next` with release, `load_next` with acquire, the exchange of `tail_` (59) with acquire and with release. -/
structure Cfg where
  linkRel : Bool
  linkAcq : Bool
  xAcq : Bool
  xRel : Bool

/-- The code: `store_next` is relaxed (fiber_interface.h 214). -/
def theCode : Cfg := ⟨false, true, true, true⟩

/-- The code with a release store in `store_next`. -/
def repaired : Cfg := ⟨true, true, true, true⟩

/-- A link in memory: 0 for null. -/
def enc : Option Nat → Nat
  | none => 0
  | some x => x + 1

def dec : Nat → Option Nat
  | 0 => none
  | x + 1 => some x

/-- `q`: program counters, ownership and history. Its fields `next` and `tail` are history here: what was stored last; all loads read `m`.
History too: the messages with which the link of a node was reset and stored last, and the message of `tail_` of a node. `race`: the
contents of a node were accessed in a race. -/
structure State where
  q : Mpsc.State
  m : Mem Loc
  own : Nat → View Loc := fun _ => zero
  rst : Nat → Nat := fun _ => 0
  nTop : Nat → Nat := fun _ => 0
  tix : Nat → Nat := fun _ => 0
  race : Bool := false

inductive Act
  | push (t x : Nat)                            -- producer t writes into node x and calls Push(x)
  | go (t ts : Nat)                             -- producer t continues
  | pop (strong : Bool)                         -- consumer calls Pop / PopWeak
  | c (ts : Nat)                                -- consumer continues
  | scribble (u x : Nat) (v : Option Nat) (ts : Nat)  -- the client writes the link of a node it owns, in thread u of the memory

/-- Thread `u` gets node `x` from the client. -/
def take (s : State) (u x : Nat) : Mem Loc := { s.m with cur := upd s.m.cur u (join (s.m.cur u) (s.own x)) }

/-- `Push(x)` is called. -/
def doPush (s : State) (t x : Nat) (q : Mpsc.State) : State :=
  { s with q := q, m := (take s (t + 1) x).touch (t + 1) (.data x), race := s.race || !(take s (t + 1) x).clear (t + 1) (.data x) }

/-- `MPSC_intrusive_store_next(item, nullptr)` (54) -/
def doReset (c : Cfg) (s : State) (u x ts : Nat) (q : Mpsc.State) : Option State :=
  match s.m.store u (.next x) 0 c.linkRel ts with
  | none => none
  | some m => some { s with q := q, m := m, rst := upd s.rst x ts, nTop := upd s.nTop x ts }

/-- `tail_.exchange(item, acq_rel)` (59); `q prev` is what follows. -/
def doSwap (c : Cfg) (s : State) (u x ts : Nat) (q : Nat → Mpsc.State) : Option State :=
  match s.m.rmw u .tail (fun _ => x) c.xAcq c.xRel ts with
  | none => none
  | some (prev, m) => some { s with q := q prev, m := m, tix := upd s.tix x (ts + 1) }

/-- `MPSC_intrusive_store_next(prev, item)` (66) -/
def doLink (c : Cfg) (s : State) (u prev x ts : Nat) (q : Mpsc.State) : Option State :=
  match s.m.store u (.next prev) (x + 1) c.linkRel ts with
  | none => none
  | some m => some { s with q := q, m := m, nTop := upd s.nTop prev ts }

/-- One step of a producer. -/
def stepP (c : Cfg) (s : State) (t ts : Nat) : Mpsc.Pc → Option State
  | .idle => none
  | .reset x => doReset c s (t + 1) x ts { s.q with next := upd s.q.next x none, th := s.q.th.set t (.swap x), ev := .none, bad := s.q.clash x }
  | .swap x => doSwap c s (t + 1) x ts (fun prev =>
      { s.q with tail := x, th := s.q.th.set t (.link prev x), ev := .none, pushed := s.q.pushed ++ [x], chain := s.q.chain ++ [x] })
  | .link prev x => doLink c s (t + 1) prev x ts
      { s.q with next := upd s.q.next prev (some x), th := s.q.th.set t .idle, ev := .none, bad := s.q.clash prev }

/-- The head node is returned (131-132, 151-152); the consumer uses it. -/
def deliver (s : State) (n : Nat) : State :=
  { s with
    q := (s.q.touch s.q.head).deliver n
    m := s.m.touch 0 (.data s.q.head)
    race := s.race || !s.m.clear 0 (.data s.q.head)
    own := upd s.own s.q.head ((s.m.touch 0 (.data s.q.head)).cur 0) }

/-- After `load_next(*head)` (97-99, 122-125, 129-132). -/
def afterLoad (s : State) : Option Nat → State
  | none => if s.q.head = 0 then { s with q := { s.q.touch s.q.head with cons := .tailA } } else { s with q := { s.q.touch s.q.head with cons := .tailB } }
  | some n =>
    if s.q.head = 0 then { s with q := { s.q.touch s.q.head with head := n, chain := s.q.chain.tail, cons := .load2 } } else deliver s n

/-- After the load in line 126 (129-132). -/
def afterLoad2 (s : State) : Option Nat → State
  | none => { s with q := { s.q.touch s.q.head with cons := .tailB } }
  | some n => deliver s n

/-- After the load in line 149 (150-156). -/
def afterLoad3 (s : State) : Option Nat → State
  | none => { s with q := (s.q.touch s.q.head).retry }
  | some n => deliver s n

/-- After the load of `tail_` in line 119 (120). -/
def afterTailA (s : State) (v : Nat) : State :=
  if v = s.q.head then { s with q := { s.q with cons := .idle, ev := .null true } } else { s with q := s.q.retry }

/-- After the load of `tail_` in line 135 (136-144). -/
def afterTailB (s : State) (v : Nat) : State :=
  if v = s.q.head then { s with q := { s.q with cons := .pushReset, ev := .none } } else { s with q := s.q.retry }

def loadNext (c : Cfg) (s : State) (ts : Nat) (k : State → Option Nat → State) : Option State :=
  match s.m.load 0 (.next s.q.head) c.linkAcq ts with
  | none => none
  | some (v, m) => some (k { s with m := m } (dec v))

/-- `tail_.load(std::memory_order_relaxed)` (119, 135) -/
def loadTail (s : State) (ts : Nat) (k : State → Nat → State) : Option State :=
  match s.m.load 0 .tail false ts with
  | none => none
  | some (v, m) => some (k { s with m := m } v)

/-- One step of the consumer in `PopWeak` (93-157). -/
def stepC (c : Cfg) (s : State) (ts : Nat) : Mpsc.CPc → Option State
  | .idle => none
  | .load => loadNext c s ts afterLoad
  | .load2 => loadNext c s ts afterLoad2
  | .load3 => loadNext c s ts afterLoad3
  | .tailA => loadTail s ts afterTailA
  | .tailB => loadTail s ts afterTailB
  | .pushReset => doReset c s 0 0 ts { s.q with next := upd s.q.next 0 none, cons := .pushSwap, ev := .none }
  | .pushSwap => doSwap c s 0 0 ts (fun prev => { s.q with tail := 0, cons := .pushLink prev, ev := .none, chain := s.q.chain ++ [0] })
  | .pushLink prev => doLink c s 0 prev 0 ts { s.q with next := upd s.q.next prev (some 0), cons := .load3, ev := .none, bad := s.q.clash prev }

/-- The client writes the link of a node it owns, relaxed (scheduler.cc 416, fiber_interface.cc 257). -/
def doScribble (s : State) (u x : Nat) (v : Option Nat) (ts : Nat) : Option State :=
  match (take s u x).store u (.next x) (enc v) false ts with
  | none => none
  | some m => some { s with
      q := { s.q with next := upd s.q.next x v, ev := .none }, m := m, nTop := upd s.nTop x ts, own := upd s.own x (m.cur u) }

def step (c : Cfg) (s : State) : Act → Option State
  | .push t x =>
    match Mpsc.step s.q (.push t x) with
    | none => none
    | some q => some (doPush s t x q)
  | .go t ts =>
    match s.q.th[t]? with
    | some pc => stepP c s t ts pc
    | none => none
  | .pop strong =>
    match Mpsc.step s.q (.pop strong) with
    | none => none
    | some q => some { s with q := q }
  | .c ts => stepC c s ts s.q.cons
  | .scribble u x v ts => if x ≠ 0 ∧ s.q.client x = true then doScribble s u x v ts else none

/-- The values stored by the constructor (43-45) and before. -/
def first (f : Nat → Option Nat) : Loc → Nat
  | .next x => enc (f x)
  | _ => 0

/-- The constructor and any number of idle producers; the client's nodes hold arbitrary links. -/
def Init (s : State) : Prop :=
  ∃ n f, f 0 = none ∧ s = { q := { next := f, th := List.replicate n .idle }, m := Mem.start (first f) }

end Verif.MpscRA
