import Verif.Common.TS
/-!
# Model of `util::fb2::EventCount` (util/fibers/event_count.h, synchronization.h 359-486, synchronization.cc 14-54)

A machine with any number of fibers ("threads" below), any number of event counts, and an arbitrary client program.
Every access to the packed 64-bit word, every spinlock acquisition, the linking, each removal from the wait queue
and each activation of a fiber is a separate step. Data protected by the spinlock is read or written in the same
step as the unlock that follows, where nothing else happens in between.

Simplifications: sequentially consistent atomics; `ActivateOther` is the abstract "resume that fiber exactly once"
(its scheduler side is a separate model); a fiber that was resumed by its timer and is activated later gets a
remote-queue token, as in `ScheduleFromRemote`, which `PullMyselfFromRemoteReadyQueue` removes. The callback
waiters of `subscribe` are not part of this machine.
-/
namespace Verif.EventCount
open Verif.Common

/-- What a client thread does next: a step of its own, or a call on event count `i`. -/
inductive Call
  | loc
  | prep (i : Nat)                 -- prepareWait (130-133)
  | drop                           -- destructor of the held Key (56-59)
  | wait (i : Nat) (timed : Bool)  -- wait / wait_until with the held Key's epoch
  | notify (i : Nat) (all : Bool)  -- notify / notifyAll (97-104)
  deriving DecidableEq

/-- A client: shared state `G`, local states `L`, choices `C`. `loc` gets the index of the stepping thread; `ret l b`
is the local state after the call at `l` returned `b`. -/
structure Client (G L C : Type) where
  call : L → Call
  loc : G → L → Nat → C → Option (G × L)
  ret : L → Bool → L

/-- Where a thread is inside an event count operation. `i` is the event count, `tm` tells `wait_until` from `wait`,
`to` is the timer's verdict (`timed_out`), `all` tells `notifyAll` from `notify`. -/
inductive EPc
  | cl                                   -- in client code
  | wCheck (i : Nat) (tm : Bool)         -- lock held, before the epoch comparison (375 / .cc 22)
  | wLink (i : Nat) (tm : Bool)          -- epoch matched, before Link (377 / .cc 25)
  | asleep (i : Nat) (tm : Bool)         -- linked, unlocked, in Suspend / WaitUntil (379 / .cc 28)
  | woken (i : Nat) (tm to : Bool)       -- resumed, before taking the lock (407 / .cc 32)
  | wPost (i : Nat) (tm to : Bool)       -- lock held (408 / .cc 33)
  | wPull (i : Nat) (to clr : Bool)      -- unlocked, before .cc 47-51
  | nLock (i : Nat) (all : Bool)         -- epoch advanced and waiters seen, before the lock (364)
  | nLoop (i : Nat) (all any : Bool)     -- lock held, before looking at the queue (wait_queue.cc 35 / 68)
  | nAct (i : Nat) (all : Bool) (w : Nat)-- waiter `w` removed, before its activation (wait_queue.cc 55 / 75)
  | nDone (i : Nat)                      -- notify: after the activation, before the unlock
  deriving DecidableEq

/-- `Key` (41-64): its event count and 32-bit epoch. `gh` is ghost: the number of notifications at the time of
`prepareWait`, not reduced modulo 2^32. -/
structure Key where
  ix : Nat
  ep32 : Nat
  gh : Nat

/-- `EventCount` (154-159). `ntf` is ghost: the number of notifications so far. -/
structure EC where
  val : Nat := 0
  lock : Option Nat := none
  queue : List Nat := []
  ntf : Nat := 0

structure Th (L : Type) where
  cl : L
  ep : EPc := .cl
  key : Option Key := none

/-- The whole machine. `tok t`: thread `t` is in its scheduler's remote ready queue although it is running. `bad`
is set when a CHECK fails or a fiber is activated twice. -/
structure State (G L : Type) where
  g : G
  ec : Nat → EC
  th : List (Th L)
  tok : Nat → Bool := fun _ => false
  bad : Bool := false

/-- A move: thread `t` continues (`go`, with a choice for client steps), or its timer fires. -/
inductive Act (C : Type)
  | go (t : Nat) (c : C)
  | timer (t : Nat)

variable {G L C : Type}

def State.put (s : State G L) (t : Nat) (x : Th L) : State G L := { s with th := s.th.set t x }

def State.setEc (s : State G L) (i : Nat) (e : EC) : State G L := { s with ec := upd s.ec i e }

/-- `ActivateOther(w)`: resume `w` if it sleeps; a timed sleeper already resumed by its timer is put into the remote
ready queue; anything else is a double activation. -/
def State.activate (s : State G L) (w : Nat) : State G L :=
  match s.th[w]? with
  | some x =>
    match x.ep with
    | .asleep i tm => s.put w { x with ep := .woken i tm false }
    | .woken _ true true => { s with tok := upd s.tok w true, bad := s.bad || s.tok w }
    | _ => { s with bad := true }
  | none => { s with bad := true }

/-- A call made from client code. -/
def stepCall (P : Client G L C) (s : State G L) (t : Nat) (x : Th L) (c : C) : Option (State G L) :=
  match P.call x.cl with
  | .loc => (P.loc s.g x.cl t c).map fun r => { s.put t { x with cl := r.2 } with g := r.1 }
  | .prep i =>                                                                            -- 131-132
    match x.key with
    | none => some ((s.setEc i { s.ec i with val := ((s.ec i).val + 1) % 2 ^ 64 }).put t
        { x with cl := P.ret x.cl true, key := some ⟨i, (s.ec i).val / 2 ^ 32, (s.ec i).ntf⟩ })
    | some _ => none
  | .drop =>                                                                              -- 57-58
    match x.key with
    | some k => some ((s.setEc k.ix { s.ec k.ix with val := ((s.ec k.ix).val + (2 ^ 64 - 1)) % 2 ^ 64 }).put t
        { x with cl := P.ret x.cl true, key := none })
    | none => none
  | .wait i tm =>                                                                         -- 374 / .cc 20-21
    match x.key, (s.ec i).lock with
    | some k, none => if k.ix = i then
        some { (s.setEc i { s.ec i with lock := some t }).put t { x with ep := .wCheck i tm } with
               bad := s.bad || (tm && s.tok t) }
      else none
    | _, _ => none
  | .notify i all =>                                                                      -- 361-362
    let s1 := s.setEc i { s.ec i with val := ((s.ec i).val + 2 ^ 32) % 2 ^ 64, ntf := (s.ec i).ntf + 1 }
    if (s.ec i).val % 2 ^ 32 = 0 then some (s1.put t { x with cl := P.ret x.cl false })
    else some (s1.put t { x with ep := .nLock i all })

/-- A step of thread `t` inside an event count operation. -/
def stepEp (P : Client G L C) (s : State G L) (t : Nat) (x : Th L) : EPc → Option (State G L)
  | .cl => none
  | .wCheck i tm =>                                                                       -- 375, 383-384
    match x.key with
    | some k => if (s.ec i).val / 2 ^ 32 = k.ep32 then some (s.put t { x with ep := .wLink i tm })
        else some ((s.setEc i { s.ec i with lock := none }).put t { x with ep := .cl, cl := P.ret x.cl tm })
    | none => none
  | .wLink i tm =>                                                                        -- 376-379
    some ((s.setEc i { s.ec i with lock := none, queue := (s.ec i).queue ++ [t] }).put t { x with ep := .asleep i tm })
  | .asleep _ _ => none
  | .woken i tm to =>                                                                     -- 407 / .cc 32
    match (s.ec i).lock with
    | none => some ((s.setEc i { s.ec i with lock := some t }).put t { x with ep := .wPost i tm to })
    | some _ => none
  | .wPost i tm to =>
    if tm then                                                                            -- .cc 33-44
      if t ∈ (s.ec i).queue then
        some ((s.setEc i { s.ec i with lock := none, queue := (s.ec i).queue.erase t }).put t
          { x with ep := .wPull i true false })
      else some ((s.setEc i { s.ec i with lock := none }).put t { x with ep := .wPull i to true })
    else some ((s.setEc i { s.ec i with lock := none }).put t { x with ep := .cl, cl := P.ret x.cl true })  -- 382
  | .wPull _ to clr =>                                                                    -- .cc 47-53
    if clr then some { s.put t { x with ep := .cl, cl := P.ret x.cl (!to) } with tok := upd s.tok t false }
    else some { s.put t { x with ep := .cl, cl := P.ret x.cl (!to) } with bad := s.bad || s.tok t }
  | .nLock i all =>                                                                       -- 364
    match (s.ec i).lock with
    | none => some ((s.setEc i { s.ec i with lock := some t }).put t { x with ep := .nLoop i all false })
    | some _ => none
  | .nLoop i all any =>                                                                   -- wait_queue.cc 35-52, 68-74
    match (s.ec i).queue with
    | [] => some ((s.setEc i { s.ec i with lock := none }).put t { x with ep := .cl, cl := P.ret x.cl any })
    | w :: q => some ((s.setEc i { s.ec i with queue := q }).put t { x with ep := .nAct i all w })
  | .nAct i all w =>                                                                      -- wait_queue.cc 55, 75
    let s1 := s.activate w
    some (s1.put t { x with ep := if all then .nLoop i all true else .nDone i })
  | .nDone i => some ((s.setEc i { s.ec i with lock := none }).put t { x with ep := .cl, cl := P.ret x.cl true })

def step (P : Client G L C) (s : State G L) : Act C → Option (State G L)
  | .go t c =>
    match s.th[t]? with
    | some x => if x.ep = .cl then stepCall P s t x c else stepEp P s t x x.ep
    | none => none
  | .timer t =>
    match s.th[t]? with
    | some x => match x.ep with
      | .asleep i true => some (s.put t { x with ep := .woken i true true })
      | _ => none
    | none => none

/-- Start: fresh event counts, every thread in client code without a key. -/
def Init (I : G → Prop) (J : L → Prop) (s : State G L) : Prop :=
  I s.g ∧ (∀ i, s.ec i = {}) ∧ (∀ x ∈ s.th, J x.cl ∧ x.ep = .cl ∧ x.key = none) ∧ s.tok = (fun _ => false) ∧ s.bad = false

/-- The 32-bit epoch and waiter count are not exhausted: fewer than 2^32 fibers, and fewer than 2^32
notifications since any held key was made. -/
def NoWrap (s : State G L) : Prop :=
  s.th.length < 2 ^ 32 ∧ ∀ (t : Nat) (x : Th L) (k : Key), s.th[t]? = some x → x.key = some k →
    (s.ec k.ix).ntf < k.gh + 2 ^ 32

end Verif.EventCount
