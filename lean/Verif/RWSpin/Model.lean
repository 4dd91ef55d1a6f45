import Verif.Common.TS
/-!
`folly::RWSpinLock` (base/RWSpinLock.h 142-270). Every atomic operation on `bits_` is one step of one of any number of
threads. The blocking calls (`lock`, `lock_shared`, `lock_upgrade`, `unlock_upgrade_and_lock`) are loops around the `try_`
calls, so they are any number of attempts here. The bits are the 32 bit pattern of the `int32_t`; memory order is
sequentially consistent. A thread holds the lock at most once at a time and releases what it holds.
-/
namespace Verif.RWSpin
open Verif.Common

/-- Where a thread is. -/
inductive Pc
  | idle
  /-- `try_lock_shared` has added READER and failed, it takes it back next (235) -/
  | back
  /-- holds the lock for reading, upgradable, for writing -/
  | rd | up | wr
  /-- `unlock_and_lock_shared`: READER added, `unlock` to come (179-180) -/
  | wr2r
  /-- `unlock_and_lock_upgrade`: UPGRADED set, WRITER to be taken away (214-215) -/
  | wr2u
deriving DecidableEq, Repr

/-- The lock and its threads. -/
structure State where
  bits : Nat
  th : List Pc
deriving DecidableEq, Repr

/-- The calls. -/
inductive Call
  | tryLock | tryShared | tryUpgrade
  | unlock | unlockShared | unlockUpgrade
  /-- `unlock_and_lock_shared`, `unlock_and_lock_upgrade` -/
  | toShared | toUpgrade
  /-- `try_unlock_upgrade_and_lock`, `unlock_upgrade_and_lock_shared` -/
  | promote | demote
  /-- the second step of a call -/
  | go
deriving DecidableEq, Repr

/-- `fetch_add` of `a`, given modulo 2^32. -/
def add32 (x a : Nat) : Nat := (x + a) % 2 ^ 32
/-- `fetch_or(UPGRADED)`. -/
def orU (x : Nat) : Nat := if x / 2 % 2 = 1 then x else x + 2
/-- `fetch_and(~(WRITER | UPGRADED))`. -/
def clearWU (x : Nat) : Nat := x - x % 4

/-- The step of a thread in control state `p`. -/
def stepPc (b : Nat) : Pc → Call → Option (Nat × Pc)
  -- try_lock (219-222)
  | .idle, .tryLock => if b = 0 then some (1, .wr) else some (b, .idle)
  -- try_lock_shared (230-239)
  | .idle, .tryShared => some (add32 b 4, if b % 4 ≠ 0 then .back else .rd)
  | .back, .go => some (add32 b (2 ^ 32 - 4), .idle)
  -- try_lock_upgrade (248-256)
  | .idle, .tryUpgrade => some (orU b, if b % 4 = 0 then .up else .idle)
  -- unlock (159-162)
  | .wr, .unlock => some (clearWU b, .idle)
  -- unlock_shared (173-175)
  | .rd, .unlockShared => some (add32 b (2 ^ 32 - 4), .idle)
  -- unlock_and_lock_shared (178-181)
  | .wr, .toShared => some (add32 b 4, .wr2r)
  | .wr2r, .go => some (clearWU b, .rd)
  -- unlock_upgrade (192-194)
  | .up, .unlockUpgrade => some (add32 b (2 ^ 32 - 2), .idle)
  -- try_unlock_upgrade_and_lock (242-245)
  | .up, .promote => if b = 2 then some (1, .wr) else some (b, .up)
  -- unlock_upgrade_and_lock_shared (206-208)
  | .up, .demote => some (add32 b (4 - 2), .rd)
  -- unlock_and_lock_upgrade (211-216)
  | .wr, .toUpgrade => some (orU b, .wr2u)
  | .wr2u, .go => some (add32 b (2 ^ 32 - 1), .up)
  | _, _ => none

/-- Thread `t` makes a step. -/
def step (s : State) (a : Nat × Call) : Option State :=
  match s.th[a.1]? with
  | none => none
  | some p => (stepPc s.bits p a.2).map fun r => { bits := r.1, th := s.th.set a.1 r.2 }

/-- A new lock, any number of threads (fewer than 2^29, or the reader count overflows). -/
def Init (s : State) : Prop := s.bits = 0 ∧ (∀ p ∈ s.th, p = .idle) ∧ s.th.length < 2 ^ 29

end Verif.RWSpin
