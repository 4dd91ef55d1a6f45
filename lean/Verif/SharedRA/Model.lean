import Verif.RelAcq.Lemmas
/-!
`util::fb2::SharedMutex` (util/fibers/synchronization.h 319-357) over the memory of C++ threads (`Verif.RelAcq`), with the memory orders of the
code. The mutex guards some non-atomic data, which a thread reads when it has the mutex in any way and writes when it has it for writing.

`lock` and `lock_shared` are attempts in a loop (`EventCount::await`, 412-431): an attempt that succeeds is followed by an acquire fence (413-416,
423-426), and between attempts there are operations on `val_` of the event count. Here any thread may make a fence and any of the operations of the event
count at any time. Left out: the wait queue and its spin lock, so a fiber that has slept and was woken is synchronised with its waker in the code but
not here; fibers of one thread (each is a thread of its own here). A `compare_exchange_strong` that fails is an acquire load of any value but 0.
-/
namespace Verif.SharedRA
open Verif.Common Verif.RelAcq

/-- `state_` (356); `val_` of the event count; the writes to the guarded data; the reads of it by each thread. -/
inductive Loc
  | st | val | wr | rd (t : Nat)
  deriving DecidableEq

/-- `unlock` (344) and `unlock_shared` (349) with release; else relaxed. -/
structure Cfg where
  unlockRel : Bool
  sharedRel : Bool

/-- The code: both relaxed. -/
def theCode : Cfg := ⟨false, false⟩

/-- The code with release in both. -/
def repaired : Cfg := ⟨true, true⟩

/-- A thread that holds nothing; that has added READER and failed, and takes it back next (333); that has the mutex for reading, for writing. -/
inductive Pc
  | idle | back | rd | wr
  deriving DecidableEq

inductive Call
  | tryLock | tryShared | unlock | unlockShared
  /-- the second step of a failing `try_lock_shared` -/
  | go
  deriving DecidableEq

/-- `fetch_add` of `a`, given modulo 2^32. -/
def add32 (x a : Nat) : Nat := (x + a) % 2 ^ 32

/-- The new value of `state_` and the new state of the thread. -/
def stepPc (b : Nat) : Pc → Call → Option (Nat × Pc)
  -- try_lock (321-324), success
  | .idle, .tryLock => if b = 0 then some (1, .wr) else none
  -- try_lock_shared (330-337)
  | .idle, .tryShared => some (add32 b 4, if b % 2 = 1 then .back else .rd)
  | .back, .go => some (add32 b (2 ^ 32 - 4), .idle)
  -- unlock (344): `fetch_and(~WRITER)`
  | .wr, .unlock => some (b - b % 2, .idle)
  -- unlock_shared (349)
  | .rd, .unlockShared => some (add32 b (2 ^ 32 - 4), .idle)
  | _, _ => none

/-- Acquire and release of the operation of a call. -/
def ord (c : Cfg) : Pc → Call → Bool × Bool
  | .idle, .tryLock => (true, true)                 -- 323
  | .idle, .tryShared => (true, false)              -- 331
  | .back, .go => (false, true)                     -- 333
  | .wr, .unlock => (false, c.unlockRel)            -- 344
  | .rd, .unlockShared => (false, c.sharedRel)      -- 349
  | _, _ => (false, false)

/-- An operation on `val_` of the event count: `prepareWait` (event_count.h 131), the destructor of the key (event_count.h 58), `notifyAll` (361). -/
inductive EvOp
  | prepare | drop | notify
  deriving DecidableEq

def EvOp.ord : EvOp → Bool × Bool
  | .prepare => (true, true)
  | .drop => (false, false)
  | .notify => (false, true)

def EvOp.apply : EvOp → Nat → Nat
  | .prepare, v => v + 1
  | .drop, v => v - 1
  | .notify, v => v + 2 ^ 32

/-- `top` (history): the last message of `state_`; `bits` (history): its value. `race`: accesses to the guarded data raced. -/
structure State where
  th : List Pc
  m : Mem Loc
  bits : Nat := 0
  top : Nat := 0
  race : Bool := false

inductive Act
  | call (t : Nat) (c : Call) (ts : Nat)
  /-- a `try_lock` that fails -/
  | fail (t ts : Nat)
  | ev (t : Nat) (o : EvOp) (ts : Nat)
  | fence (t : Nat)
  /-- an access to the guarded data -/
  | read (t : Nat) | write (t : Nat)

/-- The new value. -/
def newBits (p : Pc) (c : Call) (b : Nat) : Nat :=
  match stepPc b p c with
  | some r => r.1
  | none => b

def doCall (o : Cfg) (s : State) (t : Nat) (p : Pc) (c : Call) (ts : Nat) : Option State :=
  match s.m.rmw t .st (newBits p c) (ord o p c).1 (ord o p c).2 ts with
  | none => none
  | some (v, m) =>
    match stepPc v p c with
    | none => none
    | some r => some { s with th := s.th.set t r.2, m := m, bits := r.1, top := ts + 1 }

def doFail (s : State) (t ts : Nat) : Option State :=
  match s.m.load t .st true ts with
  | none => none
  | some (v, m) => if v ≠ 0 then some { s with m := m } else none

def doEv (s : State) (t : Nat) (o : EvOp) (ts : Nat) : Option State :=
  match s.m.rmw t .val o.apply o.ord.1 o.ord.2 ts with
  | none => none
  | some (_, m) => some { s with m := m }

def doRead (s : State) (t : Nat) : State :=
  { s with m := s.m.touch t (.rd t), race := s.race || !s.m.clear t .wr }

def doWrite (s : State) (t : Nat) : State :=
  { s with m := s.m.touch t .wr, race := s.race || !s.m.clear t .wr || !(List.range s.th.length).all (fun u => s.m.clear t (.rd u)) }

def step (o : Cfg) (s : State) : Act → Option State
  | .call t c ts =>
    match s.th[t]? with
    | none => none
    | some p => doCall o s t p c ts
  | .fail t ts => if s.th[t]? = some .idle then doFail s t ts else none
  | .ev t o ts => doEv s t o ts
  | .fence t => some { s with m := s.m.fence t }
  | .read t => if s.th[t]? = some .rd ∨ s.th[t]? = some .wr then some (doRead s t) else none
  | .write t => if s.th[t]? = some .wr then some (doWrite s t) else none

/-- A new mutex and any number of threads (fewer than 2^30, or the count of readers overflows). -/
def Init (s : State) : Prop := ∃ n, n < 2 ^ 30 ∧ s = { th := List.replicate n .idle, m := Mem.start (fun _ => 0) }

end Verif.SharedRA
