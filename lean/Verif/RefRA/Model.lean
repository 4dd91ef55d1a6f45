import Verif.RelAcq.Lemmas
/-!
Reference counting of the handles of fibers and of `Done` (`intrusive_ptr_add_ref` and `intrusive_ptr_release`: util/fibers/detail/fiber_interface.h 171-196, util/fibers/synchronization.h
223-232) over the memory of C++ threads (`Verif.RelAcq`), with the memory orders of the code.

Any number of threads, each with any number of handles of one object. A thread that has a handle accesses the object (one non-atomic location for each thread: what the threads do to the
object while they share it is not the matter here), copies a handle, gives one to another thread (which synchronises them, as any way to pass a handle must), or drops one. Who drops the
last one destroys the object, which is an access to all of it.
-/
namespace Verif.RefRA
open Verif.Common Verif.RelAcq

/-- `use_count_`; what thread `t` does with the object. -/
inductive Loc
  | cnt | data (t : Nat)
  deriving DecidableEq

/-- Release of the `fetch_sub`; the acquire fence. -/
structure Cfg where
  rel : Bool
  fence : Bool

/-- fiber_interface.h 176-177, synchronization.h 228-229 -/
def theCode : Cfg := ⟨true, true⟩

/-- What a thread does: anything; its `fetch_sub` has returned 1 and the fence is next; the destructor is next. -/
inductive Pc
  | use | fence | free
  deriving DecidableEq

/-- A thread: the number of its handles. -/
structure Th where
  refs : Nat
  pc : Pc := .use
  deriving DecidableEq

/-- The size of `use_count_` (fiber_interface.h 304, synchronization.h 265) -/
def W : Nat := 2 ^ 32

/-- History, read by no step: `top` the last message of `use_count_`; `freed` how often the object was destroyed; `uaf`: the object or its counter was accessed after that; `race`: accesses raced. -/
structure State where
  th : List Th
  m : Mem Loc
  top : Nat := 0
  freed : Nat := 0
  uaf : Bool := false
  race : Bool := false

inductive Act
  | access (t : Nat) | copy (t ts : Nat) | give (t u : Nat) | drop (t ts : Nat) | fence (t : Nat) | free (t : Nat)
  deriving DecidableEq

/-- The object is accessed through a handle. -/
def doAccess (s : State) (t : Nat) : State :=
  { s with m := s.m.touch t (.data t), race := s.race || !s.m.clear t (.data t), uaf := s.uaf || decide (s.freed ≠ 0) }

/-- `intrusive_ptr_add_ref`: fiber_interface.h 172, synchronization.h 224 -/
def doCopy (s : State) (t : Nat) (x : Th) (ts : Nat) : Option State :=
  match s.m.rmw t .cnt (fun v => (v + 1) % W) false false ts with
  | none => none
  | some (_, m) => some { s with m := m, top := ts + 1, th := s.th.set t { x with refs := x.refs + 1 }, uaf := s.uaf || decide (s.freed ≠ 0) }

/-- A handle is moved to thread `u`. -/
def doGive (s : State) (t u : Nat) (x y : Th) : State :=
  { s with
    th := (s.th.set t { x with refs := x.refs - 1 }).set u { y with refs := y.refs + 1 }
    m := { s.m with cur := upd s.m.cur u (join (s.m.cur u) (s.m.cur t)) } }

/-- `intrusive_ptr_release`: fiber_interface.h 176, synchronization.h 228 -/
def doDrop (c : Cfg) (s : State) (t : Nat) (x : Th) (ts : Nat) : Option State :=
  match s.m.rmw t .cnt (fun v => (v + (W - 1)) % W) false c.rel ts with
  | none => none
  | some (v, m) => some { s with
      m := m, top := ts + 1, th := s.th.set t ⟨x.refs - 1, if v = 1 then .fence else .use⟩, uaf := s.uaf || decide (s.freed ≠ 0) }

/-- fiber_interface.h 177, synchronization.h 229 -/
def doFence (c : Cfg) (s : State) (t : Nat) (x : Th) : State :=
  { s with m := if c.fence then s.m.fence t else s.m, th := s.th.set t { x with pc := .free } }

/-- The destructor: fiber_interface.h 187-194, synchronization.h 230 -/
def doFree (s : State) (t : Nat) (x : Th) : State :=
  { s with
    race := s.race || !(List.range s.th.length).all (fun u => s.m.clear t (.data u))
    uaf := s.uaf || decide (s.freed ≠ 0)
    freed := s.freed + 1
    th := s.th.set t { x with pc := .use } }

/-- A thread in `intrusive_ptr_release` (pc not `use`) does nothing else. -/
def step (c : Cfg) (s : State) : Act → Option State
  | .access t =>
    match s.th[t]? with
    | some x => if x.pc = .use ∧ 0 < x.refs then some (doAccess s t) else none
    | none => none
  | .copy t ts =>
    match s.th[t]? with
    | some x => if x.pc = .use ∧ 0 < x.refs then doCopy s t x ts else none
    | none => none
  | .give t u =>
    match s.th[t]?, s.th[u]? with
    | some x, some y => if t ≠ u ∧ x.pc = .use ∧ y.pc = .use ∧ 0 < x.refs then some (doGive s t u x y) else none
    | _, _ => none
  | .drop t ts =>
    match s.th[t]? with
    | some x => if x.pc = .use ∧ 0 < x.refs then doDrop c s t x ts else none
    | none => none
  | .fence t =>
    match s.th[t]? with
    | some x => if x.pc = .fence then some (doFence c s t x) else none
    | none => none
  | .free t =>
    match s.th[t]? with
    | some x => if x.pc = .free then some (doFree s t x) else none
    | none => none

/-- All handles together. -/
def handles (s : State) : Nat := (s.th.map Th.refs).sum

/-- An object with `k` handles (1 for a fiber that is not started or a `Done`; see fiber_interface.cc 256), all owned by the first of `n + 1` threads. -/
def startOf (k n : Nat) : State := { th := ⟨k, .use⟩ :: List.replicate n ⟨0, .use⟩, m := Mem.start (fun l => if l = .cnt then k else 0) }

def Init (s : State) : Prop := ∃ k n, 0 < k ∧ s = startOf k n

end Verif.RefRA
