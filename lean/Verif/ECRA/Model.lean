import Verif.RelAcq.Lemmas
/-!
`util::fb2::EventCount` (util/fibers/event_count.h 33-165, synchronization.h 359-431, synchronization.cc 12-53) over the memory of C++ threads (`Verif.RelAcq`), with the memory orders of the
code, and with a client of which nothing is assumed: between its calls, and when it evaluates conditions, every thread makes any atomic accesses to any locations.

Any number of threads; a thread has one key at a time. Simplifications: the spin lock `lock_` makes what happens under it one step, in one order for all threads, and each step sees what
happened in the earlier ones (`lockView`); a wake-up itself synchronises nothing, and `finishWait` neither (weaker than the code).
-/
namespace Verif.ECRA
open Verif.Common Verif.RelAcq

/-- `val_` (event_count.h 156); the locations of the client. -/
inductive Loc
  | val | dat (k : Nat)
  deriving DecidableEq

/-- Acquire and release of `prepareWait` (event_count.h 131), release of the notification (synchronization.h 361). -/
structure Cfg where
  prepAcq : Bool
  prepRel : Bool
  notRel : Bool

def theCode : Cfg := ⟨true, true, true⟩

/-- `kAddEpoch` -/
def E : Nat := 2 ^ 32

inductive Pc
  /-- no key -/
  | idle
  /-- has a key with this epoch, evaluates its condition -/
  | key (e : Nat)
  /-- in the wait queue -/
  | sleep
  /-- the destructor of the key is next -/
  | drop
  /-- in `notify` or (`all`) `notifyAll`, found waiters: the wait queue is next; `n` names the notification -/
  | nlock (n : Nat) (all : Bool)
  deriving DecidableEq

def Pc.holds : Pc → Bool | .key _ | .sleep | .drop => true | _ => false

/-- `q` the wait queue. The rest is history, read by no step. `top`: the last message of `val_`. A notification is named by the message it writes: `note n`; `nv n` what its thread had
seen, `zero n`: it found no waiters; `secd n`: it has been through the wait queue; `took n`: as a `notify` it took this thread from it; `alln n`: it is a `notifyAll`. `cnt p`: the number of notifications up to message `p`.
`pos t`: the message of the last `prepareWait` of `t`, `base t` what `t` had seen after it; `rd t k`: the message of location `k` that `t` has read last since then. -/
structure State where
  th : List Pc
  q : List Nat := []
  m : Mem Loc
  lockView : View Loc := RelAcq.zero
  top : Nat := 0
  note : Nat → Bool := fun _ => false
  nv : Nat → View Loc := fun _ => RelAcq.zero
  zero : Nat → Bool := fun _ => false
  secd : Nat → Bool := fun _ => false
  took : Nat → Option Nat := fun _ => none
  alln : Nat → Bool := fun _ => false
  cnt : Nat → Nat := fun _ => 0
  pos : Nat → Nat := fun _ => 0
  base : Nat → View Loc := fun _ => RelAcq.zero
  rd : Nat → Nat → Option Nat := fun _ _ => none

/-- An access of the client: a load, a store, a read-modify-write (the new value is any), an acquire fence. -/
inductive COp
  | load (k : Nat) (a : Bool) (ts : Nat)
  | store (k v : Nat) (r : Bool) (ts : Nat)
  | rmw (k v : Nat) (a r : Bool) (ts : Nat)
  | fence
  deriving DecidableEq

inductive Act
  | client (t : Nat) (o : COp)
  | prep (t ts : Nat)
  | wait (t ts : Nat)
  | timeout (t : Nat)
  | drop (t ts : Nat)
  | notify (t : Nat) (all : Bool) (ts : Nat)
  | wake (t : Nat)
  deriving DecidableEq

def doClient (s : State) (t : Nat) : COp → Option State
  | .load k a ts =>
    match s.m.load t (.dat k) a ts with
    | none => none
    | some (_, m) => some { s with m := m, rd := upd s.rd t (upd (s.rd t) k (some ts)) }
  | .store k v r ts =>
    match s.m.store t (.dat k) v r ts with
    | none => none
    | some m => some { s with m := m }
  | .rmw k v a r ts =>
    match s.m.rmw t (.dat k) (fun _ => v) a r ts with
    | none => none
    | some (_, m) => some { s with m := m, rd := upd s.rd t (upd (s.rd t) k (some ts)) }
  | .fence => some { s with m := s.m.fence t }

/-- `val_.fetch_add(kAddWaiter, acq_rel)` (event_count.h 131) -/
def doPrep (c : Cfg) (s : State) (t ts : Nat) : Option State :=
  match s.m.rmw t .val (fun v => (v + 1) % (E * E)) c.prepAcq c.prepRel ts with
  | none => none
  | some (v, m) => some { s with
      m := m, th := s.th.set t (.key (v / E)), top := ts + 1, cnt := upd s.cnt (ts + 1) (s.cnt ts)
      pos := upd s.pos t (ts + 1), base := upd s.base t (m.cur t), rd := upd s.rd t (fun _ => none) }

/-- Takes the lock: sees what happened under it before. -/
def lockIn (s : State) (t : Nat) : Mem Loc := { s.m with cur := upd s.m.cur t (join (s.m.cur t) s.lockView) }

/-- `wait` up to `Suspend`, and `wait_until` the same (synchronization.h 374-382, synchronization.cc 19-26): under the lock a relaxed load, and into the queue if the epoch is the same. -/
def doWait (s : State) (t e ts : Nat) : Option State :=
  match (lockIn s t).load t .val false ts with
  | none => none
  | some (v, m) => some { s with
      m := m, lockView := m.cur t
      th := s.th.set t (if v / E = e then .sleep else .drop)
      q := if v / E = e then s.q ++ [t] else s.q }

/-- The time limit of `wait_until` while linked (synchronization.cc 28-39): out of the queue under the lock. -/
def doTimeout (s : State) (t : Nat) : State :=
  { s with m := lockIn s t, lockView := (lockIn s t).cur t, th := s.th.set t .drop, q := s.q.erase t }

/-- The destructor of the key: `val_.fetch_sub(kAddWaiter, relaxed)` (event_count.h 58) -/
def doDrop (s : State) (t ts : Nat) : Option State :=
  match s.m.rmw t .val (fun v => (v + (E * E - 1)) % (E * E)) false false ts with
  | none => none
  | some (_, m) => some { s with m := m, th := s.th.set t .idle, top := ts + 1, cnt := upd s.cnt (ts + 1) (s.cnt ts) }

/-- `val_.fetch_add(kAddEpoch, release)` and the test for waiters (synchronization.h 361-362) -/
def doNotify (c : Cfg) (s : State) (t : Nat) (all : Bool) (ts : Nat) : Option State :=
  match s.m.rmw t .val (fun v => (v + E) % (E * E)) false c.notRel ts with
  | none => none
  | some (v, m) => some { s with
      m := m, th := s.th.set t (if v % E = 0 then .idle else .nlock (ts + 1) all), top := ts + 1, cnt := upd s.cnt (ts + 1) (s.cnt ts + 1)
      note := upd s.note (ts + 1) true, nv := upd s.nv (ts + 1) (m.cur t), zero := upd s.zero (ts + 1) (decide (v % E = 0))
      alln := upd s.alln (ts + 1) all }

/-- `WaitQueue::NotifyAll` (util/fibers/detail/wait_queue.cc 59-79) without persistent waiters: all are taken from the queue. -/
def wakeAll : List Nat → List Pc → List Pc
  | [], th => th
  | t :: q, th => wakeAll q (th.set t .drop)

/-- The wait queue under the lock (synchronization.h 364-365): `NotifyAll`, or `NotifyOne` (wait_queue.cc 34-57), which takes the first. -/
def doWake (s : State) (t n : Nat) (all : Bool) : State :=
  let m := lockIn s t
  let s := { s with m := m, lockView := m.cur t, secd := upd s.secd n true, th := s.th.set t .idle }
  if all then { s with th := wakeAll s.q s.th, q := [] }
  else
    match s.q with
    | [] => s
    | u :: q => { s with th := s.th.set u .drop, q := q, took := upd s.took n (some u) }

def step (c : Cfg) (s : State) : Act → Option State
  | .client t o => if s.th[t]? = some .sleep then none else doClient s t o
  | .prep t ts => if s.th[t]? = some .idle then doPrep c s t ts else none
  | .wait t ts =>
    match s.th[t]? with
    | some (.key e) => doWait s t e ts
    | _ => none
  | .timeout t => if s.th[t]? = some .sleep then some (doTimeout s t) else none
  | .drop t ts =>
    match s.th[t]? with
    | some (.key _) => doDrop s t ts
    | some .drop => doDrop s t ts
    | _ => none
  | .notify t all ts => if s.th[t]? = some .idle then doNotify c s t all ts else none
  | .wake t =>
    match s.th[t]? with
    | some (.nlock n all) => some (doWake s t n all)
    | _ => none

/-- `k` threads, nobody waits; the locations of the client hold anything. -/
def startOf (k : Nat) (v : Nat → Nat) : State :=
  { th := List.replicate k .idle, m := Mem.start (fun l => match l with | .val => 0 | .dat i => v i) }

def Init (s : State) : Prop := ∃ k v, s = startOf k v

/-- The width of the two halves of `val_`: fewer than 2^32 threads, and fewer than 2^32 notifications while a thread evaluates its condition with one key. -/
def Fits (s : State) : Prop := s.th.length < E ∧ ∀ (t e : Nat), s.th[t]? = some (.key e) → s.cnt s.top < s.cnt (s.pos t) + E

end Verif.ECRA
