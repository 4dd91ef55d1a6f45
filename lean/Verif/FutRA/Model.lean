import Verif.RelAcq.Lemmas
/-!
`util::fb2::Future` (util/fibers/future.h 16-60) over the memory of C++ threads (`Verif.RelAcq`), with the memory orders of the code: one thread calls `Resolve`, any number of other threads call
`Get` and `GetFor`, or `GetRef` (future.h 29: not both kinds on one future). Consumer `i` is thread `i + 1`.

A call is a number of tests of the condition, with operations of the event count and sleep in between (`EventCount::await`, `await_until`: synchronization.h 412-431, 469-485). Here a consumer tests
at any time and any thread may make any of the operations of the event count at any time; that sleepers are woken is C19 and C26. `await` has an acquire fence after a test that succeeds
(synchronization.h 414, 424); `await_until` has none. A call that returns without the value is a consumer that stops testing.
-/
namespace Verif.FutRA
open Verif.Common Verif.RelAcq

/-- `has_value`; `val_` of the event count; `value`. -/
inductive Loc
  | has | val | data
  deriving DecidableEq

/-- `getFence`: the fence in `await`. `forFence`: a fence in `await_until`. `timed`: `GetFor` is called. -/
structure Cfg where
  getFence : Bool
  forFence : Bool
  timed : Bool

def theCode : Cfg := ⟨true, false, true⟩

/-- The program that does not call `GetFor`. -/
def untimed : Cfg := ⟨true, false, false⟩

/-- With a fence in `await_until`. -/
def repaired : Cfg := ⟨true, true, true⟩

/-- The thread that resolves: before; has set `value`; has set `has_value`. -/
inductive PPc
  | run | wrote | stored
  deriving DecidableEq

/-- A consumer: outside or waiting; its test has succeeded in `Get` or (`timed`) `GetFor`; the value is taken next; it has the value. In `GetRef`: its test has succeeded. -/
inductive CPc
  | idle | won (timed : Bool) | got | fin | wonR
  deriving DecidableEq

/-- An operation on `val_` of the event count: `prepareWait` (event_count.h 131), the destructor of the key (58), `notify` (synchronization.h 361). -/
inductive EvOp
  | prepare | drop | notify
  deriving DecidableEq

def EvOp.ord : EvOp → Bool × Bool
  | .prepare => (true, true)
  | .drop => (false, false)
  | .notify => (false, true)

def EvOp.apply : EvOp → Nat → Nat
  | .prepare, v => v + 1
  | .drop, v => v - 1
  | .notify, v => v + 2 ^ 32

/-- History: `at` the message of `Resolve`, `taken`: an exchange has returned true; `moved`: the value was moved out. `race`: accesses to `value` raced. -/
structure State where
  ref : Bool
  prod : PPc := .run
  th : List CPc
  m : Mem Loc
  pos : Nat := 0
  taken : Bool := false
  moved : Bool := false
  race : Bool := false

inductive Act
  | set | publish (ts : Nat) | tryGet (i : Nat) (timed : Bool) (ts : Nat) | tryRef (i ts : Nat) | fence (i : Nat) | take (i : Nat) | read (i : Nat) | ev (t : Nat) (o : EvOp) (ts : Nat)
  deriving DecidableEq

/-- `block->value = std::move(result)` (44) -/
def doSet (s : State) : State := { s with prod := .wrote, m := s.m.touch 0 .data, race := s.race || !s.m.clear 0 .data }

/-- `block->has_value.store(true, release)` (45) -/
def doPublish (s : State) (ts : Nat) : Option State :=
  match s.m.store 0 .has 1 true ts with
  | none => none
  | some m => some { s with prod := .stored, m := m, pos := ts }

/-- `has_value.exchange(false, relaxed)` (22, 37) -/
def doGet (s : State) (i : Nat) (k : Bool) (ts : Nat) : Option State :=
  match s.m.rmw (i + 1) .has (fun _ => 0) false false ts with
  | none => none
  | some (v, m) => some { s with m := m, th := s.th.set i (if v = 1 then .won k else .idle), taken := s.taken || decide (v = 1) }

/-- `has_value.load(acquire)` (30) -/
def doRef (s : State) (i ts : Nat) : Option State :=
  match s.m.load (i + 1) .has true ts with
  | none => none
  | some (v, m) => some { s with m := m, th := s.th.set i (if v = 1 then .wonR else .idle) }

/-- Is there a fence after the test? -/
def Cfg.fences (c : Cfg) (timed : Bool) : Bool := if timed then c.forFence else c.getFence

/-- The fence of `await` (synchronization.h 414, 424); nothing in `await_until` (474, 481). -/
def doFence (c : Cfg) (s : State) (i : Nat) (k : Bool) : State :=
  { s with m := if c.fences k then s.m.fence (i + 1) else s.m, th := s.th.set i .got }

/-- `std::move(block->value)` (23, 41) -/
def doTake (s : State) (i : Nat) : State :=
  { s with m := s.m.touch (i + 1) .data, race := s.race || !s.m.clear (i + 1) .data, moved := true, th := s.th.set i .fin }

/-- The caller of `GetRef` reads the value. -/
def doRead (s : State) (i : Nat) : State := { s with race := s.race || !s.m.clear (i + 1) .data }

def doEv (s : State) (t : Nat) (o : EvOp) (ts : Nat) : Option State :=
  match s.m.rmw t .val o.apply o.ord.1 o.ord.2 ts with
  | none => none
  | some (_, m) => some { s with m := m }

def step (c : Cfg) (s : State) : Act → Option State
  | .set => if s.prod = .run then some (doSet s) else none
  | .publish ts => if s.prod = .wrote then doPublish s ts else none
  | .tryGet i k ts => if s.ref = false ∧ s.th[i]? = some .idle ∧ (k = true → c.timed = true) then doGet s i k ts else none
  | .tryRef i ts => if s.ref = true ∧ s.th[i]? = some .idle then doRef s i ts else none
  | .fence i =>
    match s.th[i]? with
    | some (.won k) => some (doFence c s i k)
    | _ => none
  | .take i => if s.th[i]? = some .got then some (doTake s i) else none
  | .read i => if s.th[i]? = some .wonR then some (doRead s i) else none
  | .ev t o ts => doEv s t o ts

/-- A new future with `n` consumers. -/
def startOf (ref : Bool) (n : Nat) : State := { ref := ref, th := List.replicate n .idle, m := Mem.start (fun _ => 0) }

def Init (s : State) : Prop := ∃ ref n, s = startOf ref n

end Verif.FutRA
