import Verif.EventCount.Monitor
/-!
`util::fb2::SharedMutex` (util/fibers/synchronization.h 319-357) as a client of the event count machine. Each atomic
operation on `state_` is one step; in particular a failing `try_lock_shared` is two steps (add, then take back).
Simplification: a fiber holds the lock at most once at a time.
-/
namespace Verif.SharedMutex
open Verif.Common Verif.EventCount

/-- `state_` (356) as a 32 bit word: 4 per reader, 1 for a writer (354). `rd` and `wr` are history, never read: the fibers
that have added `READER` and not taken it back, and the fiber that has set `WRITER`. -/
structure G where
  st : Nat
  rd : List Nat
  wr : Option Nat

/-- Control states; `w` tells `lock` from `lock_shared`. Compare `EventCount::await` (411-431). -/
inductive Pc
  | idle
  | tryl (w : Bool)      -- in try_lock / try_lock_shared
  | subT                 -- try_lock_shared failed, READER to be taken back (333)
  | chk0 (w : Bool)      -- first test of await
  | sub0                 -- same, failed lock_shared test
  | prep (w : Bool)
  | chk1 (w : Bool)      -- test after prepareWait
  | sub1
  | wait (w : Bool)
  | dropL (w : Bool)
  | dropX (w : Bool)     -- test succeeded, lock taken, Key still held
  | hold (w : Bool)
  | owe                  -- unlocked, notifyAll to come
  deriving DecidableEq

inductive Ch
  | lock (w : Bool)
  | tryLock (w : Bool)
  | unlock

/-- 32 bit addition and subtraction. -/
def add32 (a b : Nat) : Nat := (a + b) % 2 ^ 32
def sub32 (a b : Nat) : Nat := (a + (2 ^ 32 - b)) % 2 ^ 32

/-- `try_lock` (321-324): compare-exchange 0 → WRITER. -/
def casWriter (g : G) (t : Nat) : Option G := if g.st = 0 then some { g with st := 1, wr := some t } else none

/-- There is room for one more reader in the 32 bit word. -/
def Fits (g : G) : Prop := g.st + 4 < 2 ^ 32
instance (g : G) : Decidable (Fits g) := inferInstanceAs (Decidable (_ < _))

/-- The `fetch_add(READER)` of `try_lock_shared` (331). Guard: the word does not overflow (fewer than 2^30 concurrent
readers). -/
def addReader (g : G) (t : Nat) : Option G :=
  if Fits g then some { g with st := add32 g.st 4, rd := t :: g.rd } else none

/-- `fetch_add(-READER)` (333, 349). -/
def subReader (g : G) (t : Nat) : G := { g with st := sub32 g.st 4, rd := g.rd.erase t }

/-- `fetch_and(~WRITER)` (344). -/
def clearWriter (g : G) : G := { g with st := g.st - g.st % 2, wr := none }

/-- One evaluation step of the lock test in a control state that goes to `ok` on success, `sub` after a failed shared
attempt, `no` after a failed exclusive attempt. -/
def attempt (g : G) (w : Bool) (t : Nat) (ok sub no : Pc) : Option (G × Pc) :=
  if w then
    match casWriter g t with
    | some g' => some (g', ok)
    | none => some (g, no)
  else (addReader g t).map fun g' => (g', if g.st % 2 = 1 then sub else ok)

def call : Pc → Call
  | .prep _ => .prep 0
  | .wait _ => .wait 0 false
  | .dropL _ => .drop
  | .dropX _ => .drop
  | .owe => .notify 0 true
  | _ => .loc

/-- `tr`: whether `try_lock_shared` may be called directly by the users (if not, `subT` is never entered). -/
def loc (tr : Bool) (g : G) (l : Pc) (t : Nat) (c : Ch) : Option (G × Pc) :=
  match l with
  | .idle => match c with
    | .lock w => some (g, .chk0 w)
    | .tryLock w => if w || tr then some (g, .tryl w) else none
    | .unlock => none
  | .tryl w => attempt g w t (.hold w) .subT .idle
  | .subT => if tr then some (subReader g t, .idle) else none
  | .chk0 w => attempt g w t (.hold w) .sub0 (.prep true)
  | .sub0 => some (subReader g t, .prep false)
  | .chk1 w => attempt g w t (.dropX w) .sub1 (.wait true)
  | .sub1 => some (subReader g t, .wait false)
  | .hold w => match c with
    | .unlock => some (if w then clearWriter g else subReader g t, .owe)
    | _ => none
  | _ => none

def ret (l : Pc) (_ : Bool) : Pc :=
  match l with
  | .prep w => .chk1 w
  | .wait w => .dropL w
  | .dropL w => .prep w
  | .dropX w => .hold w
  | .owe => .idle
  | l => l

def client (tr : Bool) : Client G Pc Ch := { call, loc := loc tr, ret }

/-- Any number of fibers and a fresh mutex. -/
def Start : State G Pc → Prop := Init (fun g => g = { st := 0, rd := [], wr := none }) (fun l => l = .idle)

end Verif.SharedMutex
