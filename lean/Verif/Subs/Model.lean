import Verif.Common.TS
/-!
# Model of subscriptions: callback waiters of `EventCount` (util/fibers/event_count.h, synchronization.h 359-465, detail/wait_queue.cc)

One event count, any number of subscriptions (each with its own `Waiter`) and any number of notifying fibers; every party is a number.
The condition of `check_or_subscribe` is a flag that some party sets before it notifies. Every access to the packed word and every
section under the spin lock is one step; the callbacks run inside the section of their notifier and only set flags, as
event_count.h 124-126 demands. A fiber in `await` is a one-shot waiter here.
Simplified: sequentially consistent atomics (the orders are the subject of C97), and the epoch does not wrap (C19 treats the wrap).
-/
namespace Verif.Subs
open Common

/-- Where a party is. -/
inductive Pc where
  | idle
  /-- It has set the flag and will call `notify` or (`all`) `notifyAll`. -/
  | setN (all : Bool)
  /-- `NotifyInternal` has found waiters and is about to lock (synchronization.h 364). -/
  | n2 (all : Bool)
  /-- `check_or_subscribe` before its first look at the condition (436). -/
  | chk0
  /-- before `prepareWait` (442) -/
  | prep
  /-- before its second look, with the epoch of the key (443) -/
  | chk1 (e : Nat)
  /-- before `subscribe` (448) -/
  | sub (e : Nat)
  /-- the key is destroyed next; `again`: the loop goes on -/
  | drop (again : Bool)
  /-- `subscribe_persistent` after `prepareWait` (457-458) -/
  | pers1
  /-- It has a `SubKey`. -/
  | held
  /-- in the destructor of the `SubKey`, after `unsubscribe` (event_count.h 83-84); the destructor of `Key` is next -/
  | unsub
deriving DecidableEq

/-- A party: `pers` is the flag of its `Waiter`, `got` the number of calls of its callback since it was linked. -/
structure T where
  pc : Pc := .idle
  pers : Bool := false
  got : Nat := 0
deriving DecidableEq

/-- `epoch`, `waiters`: the packed word (event_count.h 154-156). `q`: the wait queue. `ready`: the condition. History, read by no step:
`keys`, who has a key; `leak`, how many keys were given up by `Drop`; `one`, whether somebody who set the flag chose `notify`. -/
structure S where
  epoch : Nat := 0
  waiters : Nat := 0
  q : List Nat := []
  ready : Bool := false
  th : Nat → T := fun _ => {}
  keys : List Nat := []
  leak : Nat := 0
  one : Bool := false

def upd (f : Nat → T) (i : Nat) (t : T) : Nat → T := fun j => if j = i then t else f j

/-- What a party does when it has a choice. -/
inductive Act where
  | set (all : Bool) | notify (all : Bool) | check | persist | destroy | dropKey | go
deriving DecidableEq

/-- The callback of `w` is called. -/
def fire (f : Nat → T) (w : Nat) : Nat → T := upd f w { f w with got := (f w).got + 1 }

/-- `NotifyOne` (wait_queue.cc 34-57) in a build without DCHECKs. -/
def notifyOne (s : S) : S :=
  match s.q with
  | [] => s
  | w :: r => { s with q := if (s.th w).pers then w :: r else r, th := fire s.th w }

/-- `NotifyAll` (wait_queue.cc 59-80): the loop over the list. -/
def notifyAll (s : S) : S :=
  { s with q := s.q.filter fun w => (s.th w).pers, th := s.q.foldl fire s.th }

/-- `NotifyInternal` up to the lock (synchronization.h 361-362). -/
def bump (s : S) (i : Nat) (all : Bool) : S :=
  { s with epoch := s.epoch + 1, th := upd s.th i { s.th i with pc := if s.waiters ≠ 0 then .n2 all else .idle } }

def goto (s : S) (i : Nat) (p : Pc) : Nat → T := upd s.th i { s.th i with pc := p }

/-- One step of party `i`. -/
def step (s : S) (a : Nat × Act) : Option S :=
  let i := a.1
  match (s.th i).pc, a.2 with
  | .idle, .set all => some { s with ready := true, one := s.one || !all, th := goto s i (.setN all) }
  | .idle, .notify all => some (bump s i all)
  | .setN all, .go => some (bump s i all)
  | .n2 true, .go => let s' := notifyAll s; some { s' with th := goto s' i .idle }
  | .n2 false, .go => let s' := notifyOne s; some { s' with th := goto s' i .idle }
  | .idle, .check => some { s with th := goto s i .chk0 }
  | .chk0, .go => some { s with th := goto s i (if s.ready then .idle else .prep) }
  -- `prepareWait` (event_count.h 130-133)
  | .prep, .go => some { s with waiters := s.waiters + 1, keys := i :: s.keys, th := goto s i (.chk1 s.epoch) }
  | .chk1 e, .go => some { s with th := goto s i (if s.ready then .drop false else .sub e) }
  -- `subscribe` (synchronization.h 387-394)
  | .sub e, .go =>
    if s.epoch = e then some { s with q := s.q ++ [i], th := upd s.th i { s.th i with pc := .held, got := 0 } }
    else some { s with th := goto s i (.drop true) }
  -- `~Key` (event_count.h 56-59)
  | .drop again, .go => some { s with waiters := s.waiters - 1, keys := s.keys.erase i, th := goto s i (if again then .prep else .idle) }
  -- `subscribe_persistent` (synchronization.h 454-465)
  | .idle, .persist => some { s with waiters := s.waiters + 1, keys := i :: s.keys, th := upd s.th i { s.th i with pc := .pers1, pers := true } }
  | .pers1, .go => some { s with q := s.q ++ [i], th := upd s.th i { s.th i with pc := .held, got := 0 } }
  -- `~SubKey` (event_count.h 81-86), `unsubscribe` (synchronization.h 396-400)
  | .held, .destroy => some { s with q := s.q.erase i, th := upd s.th i { s.th i with pc := .unsub, pers := false } }
  | .unsub, .go => some { s with waiters := s.waiters - 1, keys := s.keys.erase i, th := goto s i .idle }
  -- `SubKey::Drop` (event_count.h 89-93), whose caller guarantees that the waiter is not linked
  | .held, .dropKey => if i ∈ s.q then none else some { s with keys := s.keys.erase i, leak := s.leak + 1, th := goto s i .idle }
  | _, _ => none

end Verif.Subs
