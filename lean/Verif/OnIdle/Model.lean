import Verif.Common.Run

/-!
# On-idle tasks: `/repo/util/fibers/proactor_base.cc`, lines 166-249

`ProactorBase` keeps a vector `on_idle_arr_` of callbacks and a cursor `on_idle_next_`.

Simplifications:
* A task is a ghost number `tid` (the how-many-eth `AddOnIdleTask` created it) with its `next_ts`.
  What the callback does when it runs is an input of the model (`Exec`): the level it returns, the
  clock afterwards, and the ids it passed to `RemoveOnIdleTask` while running. A callback that calls
  `AddOnIdleTask` is not modelled (the vector may reallocate under the reference `on_idle`), nor is
  the lifetime of the callable itself when a callback removes its own task.
* The cycle clock is a natural number that does not go backwards, sums do not wrap at 2^64. The two
  constants `kLoopBudgetCycles` and `kIdleMaxCycles` are parameters. The slow-task warning (lines
  231-236) is left out.
* `none` is undefined behaviour: an element access out of bounds, or a write through the reference
  `on_idle` after the vector dropped that element.
-/
namespace Verif.OnIdle

/-- `OnIdleWrapper` (`/repo/util/fibers/proactor_base.h`), with the task's ghost number. -/
structure Task where
  tid : Nat
  nextTs : Nat
deriving DecidableEq, Repr

/-- An element of `on_idle_arr_`; `none` is an element whose `task` is empty. -/
abbrev Arr := List (Option Task)

/-- `on_idle_arr_`, `on_idle_next_`, and the ghost count of `AddOnIdleTask` calls. -/
structure St where
  arr : Arr
  next : Nat
  cnt : Nat
deriving DecidableEq, Repr

/-- A fresh proactor. -/
def init : St := ⟨[], 0, 0⟩

/-- What a callback does when it is called: the level it returns, what the clock reads afterwards,
and the ids it passes to `RemoveOnIdleTask` before returning. -/
structure Exec where
  level : Int
  now : Nat
  removes : List Nat
deriving DecidableEq, Repr

/-- The cycle constants of `RunOnIdleTasks` (proactor_base.cc 186-188). -/
structure Cfg where
  budget : Nat
  idleMax : Nat

/-- `kOnIdleMaxLevel` (proactor_base.h 49). -/
def maxLevel : Int := 21

/-- What a client can see happening. -/
inductive Ev
  /-- `AddOnIdleTask` returned `id` for the task `tid`. -/
  | added (id tid : Nat)
  /-- `RemoveOnIdleTask(id)` returned true. -/
  | removed (id : Nat)
  /-- The task `tid` was called and returned `level`. -/
  | ran (tid : Nat) (level : Int)
deriving DecidableEq, Repr

/-- `while (!empty() && !back().task) pop_back();` (lines 205-207 and 244-248). -/
def popTrail (a : Arr) : Arr := (a.reverse.dropWhile (·.isNone)).reverse

/-- `RemoveOnIdleTask` on the vector (lines 239-250): the result and the new vector. -/
def remove (a : Arr) (id : Nat) : Bool × Arr :=
  match a[id]? with
  | some (some _) => (true, popTrail (a.set id none))
  | _ => (false, a)

/-- The `RemoveOnIdleTask` calls a callback makes while it runs. -/
def removes : Arr → List Nat → List Ev × Arr
  | a, [] => ([], a)
  | a, id :: ids =>
    match remove a id with
    | (true, a1) => let r := removes a1 ids; (.removed id :: r.1, r.2)
    | (false, a1) => removes a1 ids

/-- The result of `RunOnIdleTasks`: the vector, the cursor, the returned flag, what clients saw, and
(ghost) the positions looked at, in order. -/
structure Out where
  arr : Arr
  next : Nat
  spin : Bool
  log : List Ev
  visited : List Nat
deriving DecidableEq, Repr

/-- Put an earlier part in front of a result. -/
def Out.pre (sp : Bool) (l : List Ev) (v : Nat) (o : Out) : Out :=
  { o with spin := sp || o.spin, log := l ++ o.log, visited := v :: o.visited }

/-- What one iteration does before it advances the cursor: the vector, the clock, the flag, the
events, and whether it left through the `break` on line 209. -/
structure Visit where
  arr : Arr
  cur : Nat
  spin : Bool
  log : List Ev
  stop : Bool
deriving DecidableEq, Repr

/-- Lines 214-218: the task rests until `next_ts`. The check `on_idle_next_ < size` is line 215. -/
def rest (cf : Cfg) (a : Arr) (next : Nat) (e : Exec) : Arr :=
  if e.level ≥ maxLevel then a
  else
    match a[next]? with
    | some (some t) => a.set next (some { t with nextTs := e.now + cf.idleMax >>> e.level.toNat })
    | _ => a

/-- Lines 194-221: look at the element under the cursor and run its task if it is due. `e` is what
the task does. -/
def visit (cf : Cfg) (e : Exec) (a : Arr) (next cur : Nat) : Option Visit :=
  match a[next]? with
  | none => none
  | some none => some ⟨a, cur, false, [], false⟩
  | some (some t) =>
    if t.nextTs ≤ cur then
      let r := removes a e.removes
      let l := r.1 ++ [.ran t.tid e.level]
      if e.level < 0 then
        -- line 200 writes through the reference
        if r.2.length ≤ next then none
        else
          let a2 := r.2.set next none
          if next + 1 = a2.length then some ⟨popTrail a2, cur, false, l, true⟩
          else some ⟨a2, cur, false, l, false⟩
      else some ⟨rest cf r.2 next e, e.now, decide (e.level ≥ maxLevel), l, false⟩
    else some ⟨a, cur, false, [], false⟩

/-- The `do … while` loop of `RunOnIdleTasks` (lines 193-229). `env i` is the behaviour of the task
with id `i` in this call. The first argument bounds the number of iterations: the cursor grows
with each, the vector does not, so `a.length` of them is enough (`C32_safe_partial`). -/
def loop (cf : Cfg) (env : Nat → Exec) (start : Nat) : Nat → Arr → Nat → Nat → Option Out
  | 0, _, _, _ => none
  | fuel + 1, a, next, cur =>
    match visit cf (env next) a next cur with
    | none => none
    | some v =>
      if v.stop then some ⟨v.arr, 0, v.spin, v.log, [next]⟩
      -- lines 223-227
      else if next + 1 ≥ v.arr.length then some ⟨v.arr, 0, v.spin, v.log, [next]⟩
      else if v.cur - start < cf.budget then
        (loop cf env start fuel v.arr (next + 1) v.cur).map (Out.pre v.spin v.log next)
      else some ⟨v.arr, next + 1, v.spin, v.log, [next]⟩

/-- `RunOnIdleTasks` (lines 177-237). -/
def runIdle (cf : Cfg) (env : Nat → Exec) (start : Nat) (s : St) : Option Out :=
  if s.arr = [] then some ⟨s.arr, s.next, false, [], []⟩
  else loop cf env start s.arr.length s.arr s.next start

/-- The calls of the proactor's thread. -/
inductive Op
  | add
  | remove (id : Nat)
  | idle (env : Nat → Exec) (start : Nat)

/-- The value a call returns. -/
inductive Res
  | id (n : Nat)
  | ok (b : Bool)
deriving DecidableEq, Repr

/-- What a call shows: its result, the events, the positions the idle loop looked at. -/
structure Obs where
  res : Res
  log : List Ev
  visited : List Nat
deriving DecidableEq, Repr

/-- One call. `AddOnIdleTask` is lines 166-174. -/
def step (cf : Cfg) (s : St) : Op → Option (Obs × St)
  | .add =>
    some (⟨.id s.arr.length, [.added s.arr.length s.cnt], []⟩,
      { s with arr := s.arr ++ [some ⟨s.cnt, 0⟩], cnt := s.cnt + 1 })
  | .remove id =>
    let r := remove s.arr id
    some (⟨.ok r.1, if r.1 then [.removed id] else [], []⟩, { s with arr := r.2 })
  | .idle env start =>
    (runIdle cf env start s).map fun o =>
      (⟨.ok o.spin, o.log, o.visited⟩, { s with arr := o.arr, next := o.next })

end Verif.OnIdle
