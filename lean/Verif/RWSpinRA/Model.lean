import Verif.RelAcq.Lemmas
import Verif.RWSpin.Model
/-!
`folly::RWSpinLock` (base/RWSpinLock.h 142-270) over the memory of C++ threads (`Verif.RelAcq`), with the memory orders of the code. The control
states and the effect of each operation on the bits are those of `Verif.RWSpin`. The lock guards some non-atomic data, which a thread reads
when it has the lock in any way and writes when it has it for writing.

Simplifications: as in `Verif.RWSpin`. A `compare_exchange_strong` that fails is an acquire load of any value but the expected one; the C++
memory model lets it be an old one.
-/
namespace Verif.RWSpinRA
open Verif.Common Verif.RelAcq
open Verif.RWSpin (Pc Call)

/-- `bits_`; the writes to the guarded data; the reads of it by each thread. -/
inductive Loc
  | bits | wr | rd (t : Nat)
  deriving DecidableEq

/-- Which accesses have their order; relaxed otherwise. Acquire: `try_lock` (221), `try_lock_shared` (233), `try_lock_upgrade` (249),
`try_unlock_upgrade_and_lock` (244). Release: `unlock` (161), `unlock_shared` (174), `unlock_upgrade` (193). The other operations always have the
order of the code. -/
structure Cfg where
  lockAcq : Bool
  sharedAcq : Bool
  upAcq : Bool
  promAcq : Bool
  unlockRel : Bool
  sharedRel : Bool
  upRel : Bool
  deriving DecidableEq

def theCode : Cfg := ⟨true, true, true, true, true, true, true⟩

/-- Acquire and release of the operation of a call. -/
def ord (c : Cfg) : Pc → Call → Bool × Bool
  | .idle, .tryLock => (c.lockAcq, true)            -- 221
  | .idle, .tryShared => (c.sharedAcq, false)       -- 233
  | .back, .go => (false, true)                     -- 235
  | .idle, .tryUpgrade => (c.upAcq, false)          -- 249
  | .wr, .unlock => (false, c.unlockRel)            -- 161
  | .rd, .unlockShared => (false, c.sharedRel)      -- 174
  | .wr, .toShared => (true, false)                 -- 179
  | .wr2r, .go => (false, c.unlockRel)              -- 180, 161
  | .up, .unlockUpgrade => (true, c.upRel)          -- 193
  | .up, .promote => (c.promAcq, true)              -- 244
  | .up, .demote => (true, true)                    -- 207
  | .wr, .toUpgrade => (true, false)                -- 214
  | .wr2u, .go => (false, true)                     -- 215
  | _, _ => (false, false)

/-- The expected value of a `compare_exchange_strong` (220-221, 243-244). -/
def expected : Pc → Call → Option Nat
  | .idle, .tryLock => some 0
  | .up, .promote => some 2
  | _, _ => none

/-- `q`: the control states, and as history the last value of the bits. `top` (history): the last message of the bits. `race`: accesses to the
guarded data raced. -/
structure State where
  q : RWSpin.State
  m : Mem Loc
  top : Nat := 0
  race : Bool := false

inductive Act
  | call (t : Nat) (c : Call) (ts : Nat)
  /-- a `compare_exchange_strong` that fails -/
  | fail (t : Nat) (c : Call) (ts : Nat)
  /-- an access to the guarded data -/
  | read (t : Nat) | write (t : Nat)

/-- The new bits. -/
def newBits (p : Pc) (c : Call) (b : Nat) : Nat :=
  match RWSpin.stepPc b p c with
  | some r => r.1
  | none => b

/-- An atomic operation that takes effect. -/
def doCall (o : Cfg) (s : State) (t : Nat) (p : Pc) (c : Call) (ts : Nat) : Option State :=
  match s.m.rmw t .bits (newBits p c) (ord o p c).1 (ord o p c).2 ts with
  | none => none
  | some (v, m) =>
    if (expected p c).all (· = v) then
      match RWSpin.stepPc v p c with
      | none => none
      | some r => some { s with q := { bits := r.1, th := s.q.th.set t r.2 }, m := m, top := ts + 1 }
    else none

def doFail (s : State) (t : Nat) (p : Pc) (c : Call) (ts : Nat) : Option State :=
  match s.m.load t .bits true ts with
  | none => none
  | some (v, m) => if (expected p c).any (· ≠ v) then some { s with m := m } else none

def doRead (s : State) (t : Nat) : State :=
  { s with m := s.m.touch t (.rd t), race := s.race || !s.m.clear t .wr }

def doWrite (s : State) (t : Nat) : State :=
  { s with m := s.m.touch t .wr, race := s.race || !s.m.clear t .wr || !(List.range s.q.th.length).all (fun u => s.m.clear t (.rd u)) }

def step (o : Cfg) (s : State) : Act → Option State
  | .call t c ts =>
    match s.q.th[t]? with
    | none => none
    | some p => doCall o s t p c ts
  | .fail t c ts =>
    match s.q.th[t]? with
    | none => none
    | some p => doFail s t p c ts
  | .read t => if s.q.th[t]? = some .rd ∨ s.q.th[t]? = some .up ∨ s.q.th[t]? = some .wr then some (doRead s t) else none
  | .write t => if s.q.th[t]? = some .wr then some (doWrite s t) else none

/-- A new lock, as in `Verif.RWSpin`. -/
def Init (s : State) : Prop := ∃ q, RWSpin.Init q ∧ s = { q := q, m := Mem.start (fun _ => 0) }

end Verif.RWSpinRA
