import Verif.Common.TS
/-!
The memory of C++ threads with relaxed, acquire and release accesses, in the usual form with timestamps and views (as in Kang et al.,
"A promising semantics for relaxed-memory concurrency", without promises, and Kaiser et al., "Strong logic for weak memory"). It models
the parts of the C++ standard (intro.races, atomics.order) on which the atomics in /repo/base and /repo/util/fibers rely.

* A location holds all the messages ever written to it; their timestamps are the modification order. A store takes any free timestamp
  above what the thread has seen, not only the next one, so gaps may be filled later. A read-modify-write takes the timestamp directly
  after the message it reads.
* The view of a thread says, for each location, the oldest message that it may still read. A release store puts the view of its thread
  into its message; an acquire load adds the view of the message it reads; a read-modify-write passes the view of the message it
  reads on (release sequences). An acquire fence adds the views of everything read before.
* Non-atomic data has a counter of its accesses: an access races if the thread's view does not include all earlier accesses.

Left out: sequentially consistent accesses and fences (weaker here: they count as acquire and release), release fences and consume loads (not used
in the code that is modelled over this memory), out-of-thin-air reads of relaxed accesses (load buffering) and reordering of stores before
earlier loads: a thread executes its accesses in order.
-/
namespace Verif.RelAcq
open Verif.Common

variable {L : Type} [DecidableEq L]

/-- For each location the oldest timestamp that may still be read. -/
abbrev View (L : Type) := L → Nat

def join (a b : View L) : View L := fun l => max (a l) (b l)

def zero : View L := fun _ => 0

def single (l : L) (ts : Nat) : View L := fun x => if x = l then ts else 0

structure Msg (L : Type) where
  val : Nat
  view : View L

structure Mem (L : Type) where
  /-- The messages of each location by their timestamps. -/
  msg : L → Nat → Option (Msg L)
  /-- The view of each thread. -/
  cur : Nat → View L
  /-- What an acquire fence of the thread adds. -/
  acq : Nat → View L
  /-- Non-atomic data: the number of accesses so far. -/
  log : L → Nat

/-- All locations hold their first message. -/
def Mem.start (v : L → Nat) : Mem L :=
  { msg := fun l ts => if ts = 0 then some ⟨v l, zero⟩ else none, cur := fun _ => zero, acq := fun _ => zero, log := fun _ => 0 }

def Mem.put (s : Mem L) (l : L) (ts : Nat) (m : Msg L) : L → Nat → Option (Msg L) :=
  fun x u => if x = l ∧ u = ts then some m else s.msg x u

/-- Thread `t` has read message `m` of `l` at `ts`; `a`: with acquire. -/
def Mem.saw (s : Mem L) (t : Nat) (l : L) (ts : Nat) (a : Bool) (m : Msg L) : Mem L :=
  { s with
    cur := upd s.cur t (join (join (s.cur t) (single l ts)) (if a then m.view else zero))
    acq := upd s.acq t (join (s.acq t) (join (single l ts) m.view)) }

/-- Load; `a`: acquire, else relaxed. -/
def Mem.load (s : Mem L) (t : Nat) (l : L) (a : Bool) (ts : Nat) : Option (Nat × Mem L) :=
  match s.msg l ts with
  | none => none
  | some m => if s.cur t l ≤ ts then some (m.val, s.saw t l ts a m) else none

/-- Store; `r`: release, else relaxed. -/
def Mem.store (s : Mem L) (t : Nat) (l : L) (v : Nat) (r : Bool) (ts : Nat) : Option (Mem L) :=
  if s.cur t l < ts ∧ (s.msg l ts).isNone = true then
    some { s with
      msg := s.put l ts ⟨v, if r then join (s.cur t) (single l ts) else single l ts⟩
      cur := upd s.cur t (join (s.cur t) (single l ts)) }
  else none

/-- Read-modify-write of the message at `ts`; the result has the old value. -/
def Mem.rmw (s : Mem L) (t : Nat) (l : L) (f : Nat → Nat) (a r : Bool) (ts : Nat) : Option (Nat × Mem L) :=
  match s.msg l ts with
  | none => none
  | some m =>
    if s.cur t l ≤ ts ∧ (s.msg l (ts + 1)).isNone = true then
      let s1 := s.saw t l ts a m
      let c := join (s1.cur t) (single l (ts + 1))
      some (m.val, { s1 with
        msg := s.put l (ts + 1) ⟨f m.val, join (join m.view (single l (ts + 1))) (if r then c else zero)⟩
        cur := upd s1.cur t c })
    else none

/-- Compare-and-swap that succeeds. (One that fails is a load.) -/
def Mem.cas (s : Mem L) (t : Nat) (l : L) (old new : Nat) (a r : Bool) (ts : Nat) : Option (Mem L) :=
  match s.rmw t l (fun _ => new) a r ts with
  | none => none
  | some (v, s') => if v = old then some s' else none

/-- `std::atomic_thread_fence(std::memory_order_acquire)` -/
def Mem.fence (s : Mem L) (t : Nat) : Mem L := { s with cur := upd s.cur t (join (s.cur t) (s.acq t)) }

/-- All earlier accesses to non-atomic `l` happened before this point of thread `t`. -/
def Mem.clear (s : Mem L) (t : Nat) (l : L) : Bool := decide (s.log l ≤ s.cur t l)

/-- An access to non-atomic `l`. -/
def Mem.touch (s : Mem L) (t : Nat) (l : L) : Mem L :=
  { s with log := fun x => if x = l then s.log l + 1 else s.log x, cur := upd s.cur t (join (s.cur t) (single l (s.log l + 1))) }

end Verif.RelAcq
