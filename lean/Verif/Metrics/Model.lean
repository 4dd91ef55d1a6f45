import Verif.Common.TS
/-!
Counters and gauges of the metrics library (util/metrics/family.cc 30-110, 112-180; util/metrics/metrics.cc): one family, the
tables of each thread of the pool, and `Iterate`, which adds up the values of the threads.

Simplifications. Values are integers instead of `double`. The 64-bit hash is any function of the bytes it is given; the code feeds
it the label values one after another. A call that does not find its labels in the table of its thread waits for the mutex of the
family, so other calls run in between; what it does with the mutex, and the update, is one step, because nothing in there suspends
the fiber and the table belongs to the thread. The families' list, the strings' storage (`GetString`) and histograms are left out.
-/
namespace Verif.Metrics
open Verif.Common

abbrev Str := List Nat

/-- `IncBy` or `Set`. -/
inductive Op
  | inc (v : Int)
  | set (v : Int)
deriving DecidableEq, Repr

def Op.app (v : Int) : Op → Int
  | .inc d => v + d
  | .set d => d

/-- `SingleFamily::PerThread` (metrics.h 59-62). -/
structure T where
  lmap : Nat → Option Nat
  vec : List Int

/-- A call that waits for the mutex (family.cc 88). -/
structure Pend where
  t : Nat
  ls : List Str
  op : Op
deriving DecidableEq, Repr

/-- `Iterate` between its snapshot of the number of label tuples (family.cc 133-135) and its end: the threads that did not run
`Combine` yet and the sums. `h0` is for the statements: how many calls were done when it started. -/
structure It where
  acc : List Int
  todo : List Nat
  h0 : Nat
deriving DecidableEq, Repr

structure S where
  /-- `label_values_` -/
  vals : List (List Str)
  /-- `label_map_` -/
  gmap : Nat → Option Nat
  /-- `per_thread_` -/
  ts : List T
  pend : List Pend
  it : Option It
  /-- the calls that are done, for the statements -/
  hist : List (Nat × List Str × Op)
  /-- a `resize` made a thread's table of values shorter, for the statements -/
  lost : Bool
  /-- a value outside of the table was used -/
  bad : Bool

/-- `metric_vec.resize(n)` (metrics.cc 67). -/
def resize (v : List Int) (n : Nat) : List Int := v.take n ++ List.replicate (n - v.length) 0

/-- `per_thread_[index].metric_vec[dense_id].IncBy(val)` or `set_val` (metrics.cc 39, 82). -/
def S.apply (s : S) (t : Nat) (id : Nat) (ls : List Str) (op : Op) : S :=
  match s.ts[t]? with
  | none => s
  | some x =>
    match x.vec[id]? with
    | none => { s with bad := true, hist := s.hist ++ [(t, ls, op)] }
    | some v => { s with ts := s.ts.set t { x with vec := x.vec.set id (op.app v) }, hist := s.hist ++ [(t, ls, op)] }

/-- `GetDenseId` (metrics.cc 53-70) and `Emplace` (family.cc 72-108) from the lock on: register the labels in the table of the
family and of the thread, make room for the value. -/
def S.enter (s : S) (h : Str → Nat) (t : Nat) (x : T) (ls : List Str) : S × Nat :=
  match x.lmap (h ls.flatten) with
  | some id => (s, id)
  | none =>
    match s.gmap (h ls.flatten) with
    | some id =>
      ({ s with
          ts := s.ts.set t { lmap := upd x.lmap (h ls.flatten) (some id), vec := resize x.vec (id + 1) },
          lost := s.lost || decide (id + 1 < x.vec.length) }, id)
    | none =>
      ({ s with
          vals := s.vals ++ [ls], gmap := upd s.gmap (h ls.flatten) (some s.vals.length),
          ts := s.ts.set t { lmap := upd x.lmap (h ls.flatten) (some s.vals.length), vec := resize x.vec (s.vals.length + 1) },
          lost := s.lost || decide (s.vals.length + 1 < x.vec.length) }, s.vals.length)

/-- `dest[i] += pt.metric_vec[i].val()` for all indices that both have (metrics.cc 42-51). -/
def combine : List Int → List Int → List Int
  | a :: as, v :: vs => (a + v) :: combine as vs
  | as, _ => as

inductive Act
  /-- a call of `IncBy` or `Set` on thread `t` -/
  | call (t : Nat) (ls : List Str) (op : Op)
  /-- a waiting call gets the mutex -/
  | fin (i : Nat)
  /-- `Iterate` starts, runs `Combine` on thread `t`, ends -/
  | iter
  | scan (t : Nat)
  | done
deriving DecidableEq, Repr

def step (h : Str → Nat) (s : S) : Act → Option S
  | .call t ls op =>
    match s.ts[t]? with
    | none => none
    | some x =>
      match x.lmap (h ls.flatten) with
      | some id => some (s.apply t id ls op)
      | none => some { s with pend := s.pend ++ [⟨t, ls, op⟩] }
  | .fin i =>
    match s.pend[i]? with
    | none => none
    | some p =>
      match s.ts[p.t]? with
      | none => none
      | some x =>
        let r := S.enter { s with pend := s.pend.eraseIdx i } h p.t x p.ls
        some (r.1.apply p.t r.2 p.ls p.op)
  | .iter =>
    match s.it with
    | none => some { s with it := some ⟨List.replicate s.vals.length 0, List.range s.ts.length, s.hist.length⟩ }
    | some _ => none
  | .scan t =>
    match s.it, s.ts[t]? with
    | some i, some x => if t ∈ i.todo then some { s with it := some { i with acc := combine i.acc x.vec, todo := i.todo.erase t } } else none
    | _, _ => none
  | .done =>
    match s.it with
    | some i => if i.todo = [] then some { s with it := none } else none
    | none => none

/-- A family of a pool with `n` threads after `Init`. -/
def S.init (n : Nat) : S := ⟨[], fun _ => none, List.replicate n ⟨fun _ => none, []⟩, [], none, [], false, false⟩

def Init (s : S) : Prop := ∃ n, s = S.init n

end Verif.Metrics
