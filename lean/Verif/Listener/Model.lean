import Verif.Common.TS
/-!
`ListenerInterface` (util/listener_interface.h, util/fibers/listener_interface.cc): the accept loop of one listener, the
fibers of its connections, traversals of the connection lists, migrations of connections between threads and the shutdown.

The threads are the `n` threads of the pool. A step is what a fiber does between two points at which another fiber or
another thread can interfere: code that touches only lists of its own thread and does not suspend is one step together
with the access to the shared word before or after it. While callbacks of a traversal run, no other fiber of that thread
moves (`FiberAtomicGuard`, line 340). Memory order is sequentially consistent. The tasks that the accept loop posts to a
thread run in the order in which they were posted, and the fibers they create start in that order too (proved for the
task queue and the scheduler in C21 and C53). A connection's destructor and the hooks of the listener do not suspend
between `Unlink` and the end of `RunSingleConnection`. Sockets, endpoints, logs and the file limit of `SetMaxClients` are
left out.
-/
namespace Verif.Listener
open Verif.Common

/-- Where the fiber of a connection is. -/
inductive CPc
  /-- accepted and posted to its thread (171) -/
  | queued
  /-- linked, in `HandleRequests` (253) -/
  | running
  /-- in `Migrate`, before the attempt to pass the gate (375) -/
  | mgTry (dest : Nat)
  /-- added `kMigrateVal` and saw a traversal, takes it back next (380) -/
  | mgBack (dest : Nat)
  /-- passed the gate, not yet unlinked (377-384) -/
  | mgHeld (dest : Nat)
  /-- unlinked, between the threads (386-389) -/
  | transit (dest : Nat)
  /-- arrived, gate not yet released (412) -/
  | mgOut
  /-- `HandleRequests` returned and `OnConnectionClose` was called; the socket is being closed (260-265) -/
  | closing
  /-- the end of `RunSingleConnection` (288) -/
  | gone
deriving DecidableEq, Repr

/-- A connection: its thread, its fiber, the thread in whose list its hook is linked, and whether `Connection::Shutdown`
was called on it. -/
structure Conn where
  th : Nat
  pc : CPc
  hook : Option Nat
  shut : Bool
deriving DecidableEq, Repr

/-- Where a call of `TraverseConnectionsOnThread` is. -/
inductive TPc
  /-- not yet begun -/
  | idle
  /-- counted, waiting for migrations to end (329-332) -/
  | waiting
  /-- in the loop of callbacks, before the test of the iterator `cur` (342) -/
  | visiting (cur : Option Nat)
  /-- returned this connection or null (347) -/
  | done (ret : Option Nat)
deriving DecidableEq, Repr

/-- A call of `TraverseConnectionsOnThread(cb, limit, from)` on thread `th`; `seen` are the connections on which `cb` was
called, in order. -/
structure Tr where
  th : Nat
  limit : Nat
  frm : Option Nat
  pc : TPc
  seen : List Nat
deriving DecidableEq, Repr

/-- What the accept loop posts to a thread. -/
inductive Item
  /-- start this connection (171-179) -/
  | conn (c : Nat)
  /-- shut down the connections of the thread (187-212) -/
  | clean
  /-- wait for them and delete the list (217-224) -/
  | empty
deriving DecidableEq, Repr

/-- The shutdown fibers on one thread. -/
inductive Sd
  | none
  /-- inside `conn.Shutdown()` (201) -/
  | shutting (c : Nat)
  /-- first fiber done (212) -/
  | cleaned
  /-- in `AwaitEmpty` (221) -/
  | awaiting
  /-- list deleted (224) -/
  | freed
deriving DecidableEq, Repr

/-- The accept loop: accepting (114-180), first and second wait (187, 217), after `PostShutdown` (227), and after the
destruction of the listener. -/
inductive Phase
  | accepting | stop1 | stop2 | stopped | dead
deriving DecidableEq, Repr

/-- What must not happen. -/
inductive Bad
  /-- a connection starts on a thread that has no list (248: `find(this)->second` at the end of the map) -/
  | noList
  /-- "Internal error, could not find the listener" (279) -/
  | notFound
  /-- the shutdown loop follows the hook of a connection that is in the list of another thread (203) -/
  | foreign
  /-- a connection that was left unlinked migrates again (384-385) -/
  | unlinked
  /-- a traversal uses the list after it was deleted (334) -/
  | listFreed
  /-- a traversal starts from a connection that is not in the list (338) -/
  | badFrom
  /-- a member of the listener is used after its destruction -/
  | dead
deriving DecidableEq, Repr

/-- What an observer sees: `OnConnectionStart(c)` on a thread, `OnConnectionClose(c)`, a connection refused because of the
limit or of the pause, `PreShutdown`, `PostShutdown`. -/
inductive Ev
  | start (c t : Nat)
  | close (c : Nat)
  | reject
  | paused
  | pre
  | post
deriving DecidableEq, Repr

structure S where
  /-- number of threads of the pool -/
  n : Nat
  /-- `max_clients_` -/
  max : Nat
  /-- `pause_accepting_` -/
  pause : Bool
  /-- `open_connections_` -/
  opn : Nat
  /-- `migrate_traversal_state_` -/
  word : Nat
  conns : List Conn
  trs : List Tr
  /-- `listener_map[this]` on each thread -/
  lists : Nat → Option (List Nat)
  /-- posted to each thread, not yet run -/
  queue : Nat → List Item
  sd : Nat → Sd
  phase : Phase
  log : List Ev
  bad : Option Bad

inductive Act
  /-- `SetMaxClients`, `pause_accepting`, `resume_accepting` -/
  | setMax (m : Nat)
  | setPause (b : Bool)
  /-- a connection is accepted; `t` is the choice of `PickConnectionProactor` -/
  | accept (t : Nat)
  /-- thread `t` runs the next posted task -/
  | pop (t : Nat)
  /-- connection `c` calls `Migrate(c, dest)`, and the steps of this call -/
  | migBegin (c dest : Nat)
  | migAdd (c : Nat)
  | migBack (c : Nat)
  | migUnlink (c : Nat)
  | migArrive (c : Nat)
  | migRelease (c : Nat)
  /-- `HandleRequests` of `c` returns; the end of `RunSingleConnection` -/
  | finish (c : Nat)
  | close (c : Nat)
  /-- `TraverseConnections`: one traversal on every thread; `TraverseConnectionsOnThread` on thread `t` -/
  | callAll
  | callOne (t limit : Nat) (frm : Option Nat)
  /-- steps of traversal `k` -/
  | trAdd (k : Nat)
  | trCheck (k : Nat)
  | trVisit (k : Nat)
  /-- accept fails because of `StopAccepting` -/
  | stop
  /-- `Shutdown` returns to the shutdown loop of thread `t` -/
  | sdNext (t : Nat)
  /-- the accept loop goes to the second wait -/
  | stop2
  /-- `AwaitEmpty` on thread `t` sees the empty list -/
  | emptied (t : Nat)
  /-- `PostShutdown`; the listener is destroyed -/
  | post
  | destroy
deriving DecidableEq, Repr

/-- `kMigrateVal` (listener_interface.h 155). -/
def kMigrateVal : Nat := 2 ^ 32
/-- `fetch_add` and `fetch_sub` on `migrate_traversal_state_`. -/
def add64 (x a : Nat) : Nat := (x + a) % 2 ^ 64
def sub64 (x a : Nat) : Nat := (x + 2 ^ 64 - a) % 2 ^ 64
/-- `fetch_add(1)` and `fetch_sub(1)` on `open_connections_`. -/
def inc32 (x : Nat) : Nat := (x + 1) % 2 ^ 32
def dec32 (x : Nat) : Nat := (x + 2 ^ 32 - 1) % 2 ^ 32

/-- The element after `c` (`++iter`). -/
def after (l : List Nat) (c : Nat) : Option Nat := (l.dropWhile (fun x => decide (x ≠ c))).tail.head?

def Tr.visits (r : Tr) : Bool :=
  match r.pc with
  | .visiting _ => true
  | _ => false
/-- A traversal that is counted in the word. -/
def Tr.counted (r : Tr) : Bool :=
  match r.pc with
  | .waiting | .visiting _ => true
  | _ => false

/-- A traversal runs its callbacks on thread `t`. -/
def S.busy (s : S) (t : Nat) : Bool := s.trs.any fun r => decide (r.th = t) && r.visits

def S.setC (s : S) (c : Nat) (x : Conn) : S := { s with conns := s.conns.set c x }
def S.setT (s : S) (k : Nat) (r : Tr) : S := { s with trs := s.trs.set k r }
def S.fail (s : S) (b : Bad) : S := { s with bad := some b }

/-- `RunAcceptLoop` (120-179) for one accepted socket. The counter goes up before the test and down again after a refusal
(144-159); only this fiber reads it, so both are one step. -/
def accept (s : S) (t : Nat) : Option S :=
  if s.phase ≠ .accepting then none
  else if s.pause then some { s with log := s.log ++ [.paused] }
  else if s.opn ≥ s.max then some { s with opn := dec32 (inc32 s.opn), log := s.log ++ [.reject] }
  else if t ≥ s.n then none
  else some { s with
    opn := inc32 s.opn
    conns := s.conns ++ [⟨t, .queued, none, false⟩]
    queue := upd s.queue t (s.queue t ++ [.conn s.conns.length]) }

/-- The test of the shutdown loop with the iterator at `iter`: into `Shutdown` of the connection there, or the end of the
loop (197-201, 210-212). -/
def sdGo (s : S) (t : Nat) : Option Nat → Option S
  | none => some { s with sd := upd s.sd t .cleaned }
  | some c =>
    match s.conns[c]? with
    | none => none
    | some x => some { s.setC c { x with shut := true } with sd := upd s.sd t (.shutting c) }

/-- The task at the head of the queue of thread `t`: the start of `RunSingleConnection` (242-250), of the first shutdown
fiber (187-194), of the second one (217-221). -/
def pop (s : S) (t : Nat) : Option S :=
  if s.busy t then none
  else
    match s.queue t with
    | [] => none
    | .conn c :: q =>
      match s.conns[c]? with
      | none => none
      | some x =>
        match s.lists t with
        | none => some (s.fail .noList)
        | some l => some { s.setC c { x with pc := .running, hook := some t } with
            lists := upd s.lists t (some (l ++ [c])), queue := upd s.queue t q, log := s.log ++ [.start c t] }
    | .clean :: q =>
      match s.lists t with
      | none => some (s.fail .noList)
      | some l => sdGo { s with queue := upd s.queue t q } t l.head?
    | .empty :: q =>
      match s.lists t with
      | none => some (s.fail .noList)
      | some _ => some { s with queue := upd s.queue t q, sd := upd s.sd t .awaiting }

/-- `Migrate` up to the gate (350-369). -/
def migBegin (s : S) (c dest : Nat) : Option S :=
  match s.conns[c]? with
  | none => none
  | some x =>
    if x.pc ≠ .running ∨ s.busy x.th ∨ dest ≥ s.n then none
    else if s.phase = .dead then some (s.fail .dead)
    else if x.th = dest then some s
    else some (s.setC c { x with pc := .mgTry dest })

/-- `fetch_add(kMigrateVal)` and the test (375-377). -/
def migAdd (s : S) (c : Nat) : Option S :=
  match s.conns[c]? with
  | none => none
  | some x =>
    match x.pc with
    | .mgTry d =>
      if s.busy x.th then none
      else if s.phase = .dead then some (s.fail .dead)
      else some { s.setC c { x with pc := if s.word % 2 ^ 32 = 0 then .mgHeld d else .mgBack d } with
        word := add64 s.word kMigrateVal }
    | _ => none

/-- The rollback (380). -/
def migBack (s : S) (c : Nat) : Option S :=
  match s.conns[c]? with
  | none => none
  | some x =>
    match x.pc with
    | .mgBack d =>
      if s.busy x.th then none
      else if s.phase = .dead then some (s.fail .dead)
      else some { s.setC c { x with pc := .mgTry d } with word := sub64 s.word kMigrateVal }
    | _ => none

/-- `Unlink` from the list of the source thread (384-386); the fiber leaves the thread (389). A connection that an earlier
migration left unlinked is not in a list: the map has no entry (384) or `Unlink` checks the hook (71). -/
def migUnlink (s : S) (c : Nat) : Option S :=
  match s.conns[c]? with
  | none => none
  | some x =>
    match x.pc with
    | .mgHeld d =>
      if s.busy x.th then none
      else
        match s.lists x.th, x.hook with
        | some l, some _ => some { s.setC c { x with pc := .transit d, hook := none } with
            lists := upd s.lists x.th (some (l.erase c)) }
        | _, none => some (s.fail .unlinked)
        | none, some _ => some (s.fail .notFound)
    | _ => none

/-- The fiber continues on the destination thread and links there if the thread has a list (391-411). -/
def migArrive (s : S) (c : Nat) : Option S :=
  match s.conns[c]? with
  | none => none
  | some x =>
    match x.pc with
    | .transit d =>
      if s.busy d then none
      else
        match s.lists d with
        | none => some (s.setC c { x with pc := .mgOut, th := d })
        | some l => some { s.setC c { x with pc := .mgOut, th := d, hook := some d } with
            lists := upd s.lists d (some (l ++ [c])) }
    | _ => none

/-- The release of the gate (414). -/
def migRelease (s : S) (c : Nat) : Option S :=
  match s.conns[c]? with
  | none => none
  | some x =>
    match x.pc with
    | .mgOut =>
      if s.busy x.th then none
      else if s.phase = .dead then some (s.fail .dead)
      else some { s.setC c { x with pc := .running } with word := sub64 s.word kMigrateVal }
    | _ => none

/-- `HandleRequests` returned or threw, `OnConnectionClose` (252-260). -/
def finish (s : S) (c : Nat) : Option S :=
  match s.conns[c]? with
  | none => none
  | some x =>
    match x.pc with
    | .running =>
      if s.busy x.th then none
      else if s.phase = .dead then some (s.fail .dead)
      else some { s.setC c { x with pc := .closing } with log := s.log ++ [.close c] }
    | _ => none

/-- The end of `RunSingleConnection` (267-288). -/
def close (s : S) (c : Nat) : Option S :=
  match s.conns[c]? with
  | none => none
  | some x =>
    match x.pc with
    | .closing =>
      if s.busy x.th then none
      else if s.phase = .dead then some (s.fail .dead)
      else
        match x.hook with
        | none => some { s.setC c { x with pc := .gone } with opn := dec32 s.opn }
        | some _ =>
          match s.lists x.th with
          | none => some (s.fail .notFound)
          | some l => some { s.setC c { x with pc := .gone, hook := none } with
              opn := dec32 s.opn, lists := upd s.lists x.th (some (l.erase c)) }
    | _ => none

/-- `TraverseConnections` (311-314): one traversal per thread, without a limit. -/
def callAll (s : S) : Option S :=
  if s.phase = .dead then none
  else some { s with trs := s.trs ++ (List.range s.n).map fun t => ⟨t, 2 ^ 32 - 1, none, .idle, []⟩ }

/-- A call of `TraverseConnectionsOnThread` on thread `t`. -/
def callOne (s : S) (t limit : Nat) (frm : Option Nat) : Option S :=
  if s.phase = .dead ∨ t ≥ s.n ∨ limit ≥ 2 ^ 32 then none
  else some { s with trs := s.trs ++ [⟨t, limit, frm, .idle, []⟩] }

/-- Entering the loop of callbacks (334-340) once no migration is counted. -/
def enter (s : S) (k : Nat) (r : Tr) : Option S :=
  match s.lists r.th with
  | none => some (s.fail .listFreed)
  | some l =>
    match r.frm with
    | none => some (s.setT k { r with pc := .visiting l.head? })
    | some c => if c ∈ l then some (s.setT k { r with pc := .visiting (some c) }) else some (s.fail .badFrom)

/-- The begin of a traversal (321-329). Fewer than 2^32 - 1 of them are under way at a time. -/
def trAdd (s : S) (k : Nat) : Option S :=
  match s.trs[k]? with
  | none => none
  | some r =>
    if r.pc ≠ .idle ∨ s.busy r.th ∨ s.trs.countP Tr.counted + 1 ≥ 2 ^ 32 then none
    else if s.phase = .dead then some (s.fail .dead)
    else
      match s.lists r.th with
      | none => some (s.setT k { r with pc := .done none })
      | some _ =>
        let s1 : S := { s with word := add64 s.word 1 }
        if s.word / 2 ^ 32 = 0 then enter s1 k r
        else some (s1.setT k { r with pc := .waiting })

/-- After a sleep: the word is read again (330-331). -/
def trCheck (s : S) (k : Nat) : Option S :=
  match s.trs[k]? with
  | none => none
  | some r =>
    if r.pc ≠ .waiting ∨ s.busy r.th then none
    else if s.phase = .dead then some (s.fail .dead)
    else if s.word / 2 ^ 32 = 0 then enter s k r
    else some s

/-- One round of the loop of callbacks, or its end with the release and the return (342-347). -/
def trVisit (s : S) (k : Nat) : Option S :=
  match s.trs[k]? with
  | none => none
  | some r =>
    match r.pc with
    | .visiting cur =>
      match cur, s.lists r.th with
      | some c, some l =>
        if r.seen.length < r.limit then some (s.setT k { r with pc := .visiting (after l c), seen := r.seen ++ [c] })
        else some { s.setT k { r with pc := .done (some c) } with word := sub64 s.word 1 }
      | _, _ => some { s.setT k { r with pc := .done none } with word := sub64 s.word 1 }
    | _ => none

/-- The accept loop ends, `PreShutdown`, and the first task is posted to all threads (182-187). -/
def stop (s : S) : Option S :=
  if s.phase ≠ .accepting then none
  else some { s with phase := .stop1, queue := fun t => s.queue t ++ [.clean], log := s.log ++ [.pre] }

/-- `Shutdown` has returned: to the next connection, or to the begin of the list if this one was unlinked (202-207). -/
def sdNext (s : S) (t : Nat) : Option S :=
  if s.busy t then none
  else
    match s.sd t with
    | .shutting c =>
      match s.conns[c]?, s.lists t with
      | some x, some l =>
        match x.hook with
        | none => sdGo s t l.head?
        | some h => if h = t then sdGo s t (after l c) else some (s.fail .foreign)
      | _, _ => none
    | _ => none

/-- All first tasks are done, the second one is posted (217). -/
def stop2 (s : S) : Option S :=
  if s.phase = .stop1 ∧ (List.range s.n).all (fun t => decide (s.sd t = .cleaned)) then
    some { s with phase := .stop2, queue := fun t => s.queue t ++ [.empty] }
  else none

/-- `AwaitEmpty` returns, the list is deleted (221-223). -/
def emptied (s : S) (t : Nat) : Option S :=
  if s.busy t then none
  else if s.sd t = .awaiting ∧ s.lists t = some [] then
    some { s with lists := upd s.lists t none, sd := upd s.sd t .freed }
  else none

/-- All second tasks are done, `PostShutdown` (225-231). -/
def post (s : S) : Option S :=
  if s.phase = .stop2 ∧ (List.range s.n).all (fun t => decide (s.sd t = .freed)) then
    some { s with phase := .stopped, log := s.log ++ [.post] }
  else none

/-- The accept loop has ended, `AcceptServer::Wait` returns and the server deletes its listeners
(accept_server.cc 69-74, 87-90, 106-111). -/
def destroy (s : S) : Option S :=
  if s.phase = .stopped then some { s with phase := .dead } else none

def stepA (s : S) : Act → Option S
  | .setMax m => if m < 2 ^ 32 ∧ s.phase ≠ .dead then some { s with max := m } else none
  | .setPause b => if s.phase ≠ .dead then some { s with pause := b } else none
  | .accept t => accept s t
  | .pop t => if t < s.n then pop s t else none
  | .migBegin c d => migBegin s c d
  | .migAdd c => migAdd s c
  | .migBack c => migBack s c
  | .migUnlink c => migUnlink s c
  | .migArrive c => migArrive s c
  | .migRelease c => migRelease s c
  | .finish c => finish s c
  | .close c => close s c
  | .callAll => callAll s
  | .callOne t l f => callOne s t l f
  | .trAdd k => trAdd s k
  | .trCheck k => trCheck s k
  | .trVisit k => trVisit s k
  | .stop => stop s
  | .sdNext t => sdNext s t
  | .stop2 => stop2 s
  | .emptied t => emptied s t
  | .post => post s
  | .destroy => destroy s

def step (s : S) (a : Act) : Option S := if s.bad.isSome then none else stepA s a

/-- `RunAcceptLoop` after the lists were made on all threads of the pool (107-112), with any limit. -/
def S.init (n max : Nat) : S where
  n := n
  max := max
  pause := false
  opn := 0
  word := 0
  conns := []
  trs := []
  lists := fun t => if t < n then some [] else none
  queue := fun _ => []
  sd := fun _ => .none
  phase := .accepting
  log := []
  bad := none

def Init (s : S) : Prop := ∃ n max, 0 < n ∧ max < 2 ^ 32 ∧ s = S.init n max

end Verif.Listener
