import Verif.Common.Run
import Verif.Common.TS

/-!
# The completion table of the two proactors

`/repo/util/fibers/uring_proactor.cc` (Init 264-271, ProcessCqeBatch 279-321, GetSubmitEntry 369-403,
RegrowCentries 658-667) and `/repo/util/fibers/epoll_proactor.cc` (Init 161-165, Arm 340-383, Disarm
385-400, DispatchCompletions 489-534, RegrowCentries 536-544).

Both keep a vector `centries_` of callbacks, threaded by a free list through `index`, and pass the
position of a callback to the kernel as user data.

Simplifications:
* A callback is a ghost number, the how-many-eth submission (or `Arm`) it came with.
* Positions and sizes are natural numbers: `next_free_ce_` (int32) does not overflow.
* The kernel of the uring model holds the submissions whose final completion has not been processed.
  A completion names one of them; `more` is `IORING_CQE_F_MORE`. That the kernel sends exactly one
  final completion for each submission, and nothing after it, is assumed.
* The kernel of the epoll model holds the registrations. `fetch` is `epoll_wait`: it returns events of
  some registrations, which are then dispatched one by one; callbacks may call `Arm` and `Disarm`
  in between. Only the Linux branches are modelled.
* Entries without a callback (`kIgnoreIndex`, `kWakeIndex`) do not use the table and are left out.
* `none` is undefined behaviour: an access out of bounds or a call of an empty `std::function`.
-/
namespace Verif.Completion

open Verif.Common (upd)

/-- `centries_` and `next_free_ce_`. `none` in `idx` and `next` is -1. -/
structure Tab where
  size : Nat
  cb : Nat → Option Nat
  idx : Nat → Option Nat
  next : Option Nat

/-- `Init` (uring 265-271, epoll 161-165): `n` free entries. -/
def Tab.init (n : Nat) : Tab :=
  { size := n, cb := fun _ => none, idx := fun i => if i < n - 1 then some (i + 1) else none,
    next := some 0 }

/-- `RegrowCentries` (uring 658-667, epoll 536-544). -/
def Tab.regrow (t : Tab) : Tab :=
  { t with
    size := t.size * 2
    idx := fun i => if t.size ≤ i ∧ i < t.size * 2 - 1 then some (i + 1)
      else if t.size ≤ i then none else t.idx i
    next := some t.size }

/-- Make sure there is a free entry (uring 384-387, epoll 341-344). The flag says whether the vector
was reallocated. -/
def Tab.ensure (t : Tab) : Bool × Tab :=
  match t.next with
  | none => (true, t.regrow)
  | some _ => (false, t)

/-- Take the head of the free list for a callback (uring 388-397, epoll 345-358). `mark` says whether
the entry's `index` is set to -1, which only epoll does. `none`: access out of bounds. -/
def Tab.take (mark : Bool) (t : Tab) (c : Nat) : Option (Nat × Tab) :=
  match t.next with
  | none => none
  | some i =>
    if i < t.size then
      some (i, { t with next := t.idx i, cb := upd t.cb i (some c),
                        idx := if mark then upd t.idx i none else t.idx })
    else none

/-- Put an entry back at the head of the free list (uring 311-316, epoll 391-394). -/
def Tab.put (t : Tab) (i : Nat) : Tab :=
  { t with cb := upd t.cb i none, idx := upd t.idx i t.next, next := some i }

/-! ## io_uring -/

/-- The uring proactor and its kernel: the table, the submissions in flight with their user data, the
number of submissions so far, and `pending_cb_cnt_`. -/
structure U where
  tab : Tab
  live : List (Nat × Nat)
  cnt : Nat
  pending : Nat

/-- A fresh ring with `n` entries. -/
def U.init (n : Nat) : U := ⟨Tab.init n, [], 0, 0⟩

/-- `GetSubmitEntry` with a callback, and the submission. Returns whether the table was
reallocated, the user data, and the new state. -/
def U.submit (u : U) : Option (Bool × Nat × U) :=
  let (g, t) := u.tab.ensure
  match t.take false u.cnt with
  | none => none
  | some (i, t) =>
    some (g, i, { tab := t, live := u.live ++ [(u.cnt, i)], cnt := u.cnt + 1, pending := u.pending + 1 })

/-- The submissions a callback makes while it runs. Returns whether one of them reallocated. -/
def U.submits : Nat → U → Option (Bool × U)
  | 0, u => some (false, u)
  | n + 1, u =>
    match u.submit with
    | none => none
    | some (g, _, u1) =>
      match U.submits n u1 with
      | none => none
      | some (g2, u2) => some (g || g2, u2)

/-- Events of the uring model. `complete k more subs`: the kernel completes the `k`-th submission in
flight, and its callback makes `subs` submissions before it returns. -/
inductive UAct
  | submit
  | complete (k : Nat) (more : Bool) (subs : Nat)
deriving DecidableEq, Repr

/-- What can be seen. `called op cb more moved`: the completion of submission `op` called the callback
of submission `cb`; `moved` says the called `std::function` object was moved away, by a
reallocation of the table, while it was running. -/
inductive UObs
  | submitted (op slot : Nat)
  | called (op cb : Nat) (more moved : Bool)
  | nothing
deriving DecidableEq, Repr

/-- One event. The completion is `ProcessCqeBatch` 286-320. -/
def U.step (u : U) : UAct → Option (UObs × U)
  | .submit =>
    match u.submit with
    | none => none
    | some (_, i, u1) => some (.submitted u.cnt i, u1)
  | .complete k more subs =>
    match u.live[k]? with
    | none => some (.nothing, u)
    | some (op, i) =>
      if i < u.tab.size then
        match u.tab.cb i with
        | none => none
        | some c =>
          if more then
            -- lines 307-309: called in place
            match U.submits subs u with
            | none => none
            | some (g, u1) => some (.called op c true g, u1)
          else
            -- lines 310-317: moved to the stack, the entry is freed before the call
            let u0 : U := { u with tab := u.tab.put i, live := u.live.eraseIdx k,
                                   pending := u.pending - 1 }
            match U.submits subs u0 with
            | none => none
            | some (_, u1) => some (.called op c false false, u1)
      else none

/-! ## epoll -/

/-- The epoll proactor and its kernel: the table, the registrations with their user data, the number
of registrations so far, the events fetched and not yet dispatched, and (ghost) the number of
registrations at the time of the fetch. -/
structure E where
  tab : Tab
  armed : List (Nat × Nat)
  cnt : Nat
  batch : List (Nat × Nat)
  fetched : Nat

/-- A fresh proactor with `n` entries (512 in the code). -/
def E.init (n : Nat) : E := ⟨Tab.init n, [], 0, [], 0⟩

/-- Events of the epoll model. `fetch p`: `epoll_wait` returns events of the registrations selected
by `p`, in that order. -/
inductive EAct
  | arm
  | disarm (k : Nat)
  | fetch (p : List Nat)
  | dispatch

/-- What can be seen. `called arm cb`: the event of registration `arm` called the callback of
registration `cb`, or none. -/
inductive EObs
  | armed (arm slot : Nat)
  | called (arm : Nat) (cb : Option Nat)
  | nothing
deriving DecidableEq, Repr

/-- One event: `Arm` 340-383, `Disarm` 385-400, `epoll_wait`, one round of `DispatchCompletions`
506-526. -/
def E.step (e : E) : EAct → Option (EObs × E)
  | .arm =>
    match e.tab.ensure.2.take true e.cnt with
    | none => none
    | some (i, t) =>
      some (.armed e.cnt i, { e with tab := t, armed := e.armed ++ [(e.cnt, i)], cnt := e.cnt + 1 })
  | .disarm k =>
    match e.armed[k]? with
    | none => some (.nothing, e)
    | some (_, i) => some (.nothing, { e with tab := e.tab.put i, armed := e.armed.eraseIdx k })
  | .fetch p =>
    if e.batch = [] then
      some (.nothing, { e with batch := p.filterMap (fun k => e.armed[k]?), fetched := e.cnt })
    else some (.nothing, e)
  | .dispatch =>
    match e.batch with
    | [] => some (.nothing, e)
    | (a, i) :: rest =>
      if i < e.tab.size then
        let c := if e.tab.idx i = none then e.tab.cb i else none
        some (.called a c, { e with batch := rest })
      else none

end Verif.Completion
