import Verif.RelAcq.Lemmas
/-!
`util::fb2::EmbeddedBlockingCounter` (util/fibers/event_count.h 167-221, synchronization.cc 118-158) on its `EventCount` (event_count.h 33-165,
synchronization.h 359-431), over the memory of C++ threads (`Verif.RelAcq`), access by access with the memory orders of the code.

Any number of threads. A worker owns one unit of the counter, writes data of its own (not atomic), may start another worker (`Add`) and ends with `Dec`.
The others call `Wait`, and read the data of all workers when it returns.

Simplifications: the spin lock of the event count makes what happens under it one step, in one order for all threads, and each step sees what happened in the earlier ones; a
wake-up itself synchronises nothing (weaker than the code); `Start`, `Cancel` and waits with a time limit are left out, and a counter that has reached 0 is not started again, so
that there is one notification (epochs do not wrap); the waiters in the wait queue are the threads at `sleep`.
-/
namespace Verif.BlockRA
open Verif.Common Verif.RelAcq

/-- `count_` (event_count.h 220), `val_` (156), the data of each worker. -/
inductive Loc
  | cnt | val | data (t : Nat)
  deriving DecidableEq

/-- Acquire and release of `Dec`, of `prepareWait`, release of the notification, and the fence in `await`. -/
structure Cfg where
  decAcq : Bool
  decRel : Bool
  prepAcq : Bool
  prepRel : Bool
  notRel : Bool
  fence : Bool

/-- The code: synchronization.cc 135, event_count.h 131, synchronization.h 361, 414 and 424. -/
def theCode : Cfg := ⟨true, true, true, true, true, true⟩

/-- `kAddEpoch` -/
def E : Nat := 2 ^ 32

/-- What a thread does next. -/
inductive Pc
  | idle
  /-- it owns a unit of the counter -/
  | work
  /-- its `Dec` has reached 0: `val_.fetch_add(kAddEpoch)`; then the wait queue under the lock -/
  | notify | nlock
  /-- in `await`: `prepareWait`; `condition()` with the epoch of the key; `wait(epoch)` -/
  | prep | test (e : Nat) | lock (e : Nat)
  /-- suspended, in the wait queue; taken from it and resumed (`finishWait`); the destructor of the key in the loop -/
  | sleep | woke | drop
  /-- `condition()` was true, with a key or without: the fence; the destructor of the key; `Wait` has returned -/
  | won (key : Bool) | dropG | got
  deriving DecidableEq

/-- History, read by no step: `cv` the last value of `count_`, `topC` and `topV` the last messages of `count_` and `val_`, `fired` a `Dec` has reached 0, `phase` 0 before the
notification, 1 when it has found waiters, 2 after the wait queue, 3 when it has found none; `nAt` its message. `seen`: someone has read the data. `race`: accesses raced. -/
structure State where
  th : List Pc
  m : Mem Loc
  lockView : View Loc := zero
  cv : Nat
  topC : Nat := 0
  topV : Nat := 0
  fired : Bool := false
  phase : Nat := 0
  nAt : Nat := 0
  seen : Bool := false
  race : Bool := false

inductive Act
  | write (t : Nat) | add (t u ts : Nat) | dec (t ts : Nat) | notify (t ts : Nat) | section (t : Nat)
  | test0 (t ts : Nat) | prep (t ts : Nat) | test (t ts : Nat) | lock (t ts : Nat) | finish (t : Nat) | drop (t ts : Nat) | fence (t : Nat)
  | read (t : Nat) | leave (t : Nat)
  deriving DecidableEq

/-- A worker writes its data. -/
def doWrite (s : State) (t : Nat) : State :=
  { s with m := s.m.touch t (.data t), race := s.race || !s.m.clear t (.data t) || s.seen }

/-- `Add(1)` (event_count.h 199-201): `count_.fetch_add(1, relaxed)`, for the new worker `u`. -/
def doAdd (s : State) (t u ts : Nat) : Option State :=
  match s.m.rmw t .cnt (· + 1) false false ts with
  | none => none
  | some (v, m) => some { s with m := m, th := s.th.set u .work, cv := v + 1, topC := ts + 1 }

/-- `Dec` (synchronization.cc 134-139) -/
def doDec (c : Cfg) (s : State) (t ts : Nat) : Option State :=
  match s.m.rmw t .cnt (· - 1) c.decAcq c.decRel ts with
  | none => none
  | some (v, m) => some { s with
      m := m, th := s.th.set t (if v = 1 then .notify else .idle), cv := v - 1, topC := ts + 1, fired := s.fired || decide (v = 1) }

/-- `NotifyInternal` (synchronization.h 361-362) -/
def doNotify (c : Cfg) (s : State) (t ts : Nat) : Option State :=
  match s.m.rmw t .val (· + E) false c.notRel ts with
  | none => none
  | some (v, m) => some { s with
      m := m, th := s.th.set t (if v % E ≠ 0 then .nlock else .idle), topV := ts + 1, nAt := ts + 1, phase := if v % E ≠ 0 then 1 else 3 }

/-- `lock_.lock()` -/
def enter (s : State) (t : Nat) : Mem Loc := { s.m with cur := upd s.m.cur t (join (s.m.cur t) s.lockView) }

def Pc.wake : Pc → Pc
  | .sleep => .woke
  | p => p

/-- `NotifyAll` under the lock (synchronization.h 363-365) -/
def doSection (s : State) (t : Nat) : State :=
  { s with m := enter s t, lockView := join s.lockView ((enter s t).cur t), th := (s.th.set t .idle).map Pc.wake, phase := 2 }

/-- `condition()` (event_count.h 174-179): `count_.load(relaxed) == 0`. `k`: with a key; `p`: where it goes on if not. -/
def doTest (s : State) (t ts : Nat) (k : Bool) (p : Pc) : Option State :=
  match s.m.load t .cnt false ts with
  | none => none
  | some (v, m) => some { s with m := m, th := s.th.set t (if v = 0 then .won k else p) }

/-- `prepareWait` (event_count.h 130-133) -/
def doPrep (c : Cfg) (s : State) (t ts : Nat) : Option State :=
  match s.m.rmw t .val (· + 1) c.prepAcq c.prepRel ts with
  | none => none
  | some (v, m) => some { s with m := m, th := s.th.set t (.test (v / E)), topV := ts + 1 }

/-- `wait` (synchronization.h 371-385), up to `Suspend` -/
def doLock (s : State) (t e ts : Nat) : Option State :=
  match (enter s t).load t .val false ts with
  | none => none
  | some (v, m) => some { s with m := m, lockView := join s.lockView (m.cur t), th := s.th.set t (if v / E = e then .sleep else .drop) }

/-- `finishWait` (synchronization.h 402-409) -/
def doFinish (s : State) (t : Nat) : State :=
  { s with m := enter s t, lockView := join s.lockView ((enter s t).cur t), th := s.th.set t .drop }

/-- The destructor of the key (event_count.h 56-59) -/
def doDrop (s : State) (t ts : Nat) (p : Pc) : Option State :=
  match s.m.rmw t .val (· - 1) false false ts with
  | none => none
  | some (_, m) => some { s with m := m, th := s.th.set t p, topV := ts + 1 }

/-- The fence (synchronization.h 414, 424) -/
def doFence (c : Cfg) (s : State) (t : Nat) (k : Bool) : State :=
  { s with m := if c.fence then s.m.fence t else s.m, th := s.th.set t (if k then .dropG else .got) }

/-- After `Wait`: the data of all workers is read. -/
def doRead (s : State) (t : Nat) : State :=
  { s with seen := true, race := s.race || !(List.range s.th.length).all (fun u => s.m.clear t (.data u)) }

def step (c : Cfg) (s : State) : Act → Option State
  | .write t => if s.th[t]? = some .work then some (doWrite s t) else none
  | .add t u ts => if s.th[t]? = some .work ∧ s.th[u]? = some .idle then doAdd s t u ts else none
  | .dec t ts => if s.th[t]? = some .work then doDec c s t ts else none
  | .notify t ts => if s.th[t]? = some .notify then doNotify c s t ts else none
  | .section t => if s.th[t]? = some .nlock then some (doSection s t) else none
  | .test0 t ts => if s.th[t]? = some .idle then doTest s t ts false .prep else none
  | .prep t ts => if s.th[t]? = some .prep then doPrep c s t ts else none
  | .test t ts =>
    match s.th[t]? with
    | some (.test e) => doTest s t ts true (.lock e)
    | _ => none
  | .lock t ts =>
    match s.th[t]? with
    | some (.lock e) => doLock s t e ts
    | _ => none
  | .finish t => if s.th[t]? = some .woke then some (doFinish s t) else none
  | .drop t ts =>
    match s.th[t]? with
    | some .drop => doDrop s t ts .prep
    | some .dropG => doDrop s t ts .got
    | _ => none
  | .fence t =>
    match s.th[t]? with
    | some (.won k) => some (doFence c s t k)
    | _ => none
  | .read t => if s.th[t]? = some .got then some (doRead s t) else none
  | .leave t => if s.th[t]? = some .got then some { s with th := s.th.set t .idle } else none

/-- A new counter with `n` workers, and `k` other threads (fewer than 2^32 threads, or the count of waiters runs into the epoch). -/
def startOf (n k : Nat) : State :=
  { th := List.replicate n .work ++ List.replicate k .idle, m := Mem.start (fun l => if l = .cnt then n else 0), cv := n }

def Init (s : State) : Prop := ∃ n k, n + k < E ∧ s = startOf n k

end Verif.BlockRA
