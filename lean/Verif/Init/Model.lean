import Verif.Common.TS
/-!
# Model of the module initializers and the main guard (base/init.cc, base/init.h)

The registrations are fixed when `main` starts, as static objects make them. A thread constructs one `MainInitGuard` and later
destroys it; there are any number of threads, whose atomic operations and whose calls of registered functions interleave.
Simplified: the other work of the constructor and destructor (flags, logs, signal handlers, the clock; init.cc 121-155, 166-171)
has no effect on the guards; the registered functions only record that they ran.
-/
namespace Verif.Init

/-- A registration (`REGISTER_MODULE_INITIALIZER`, `REGISTER_MODULE_DESTRUCTOR`, init.h 33-50): which function, and whether it is an
initializer. -/
structure Node where
  id : Nat
  isCtor : Bool
deriving DecidableEq

/-- The constructor of `ModuleInitializer` (init.cc 37-40): a node is put in front of the list. -/
def register (list : List Node) (n : Node) : List Node := n :: list

/-- The list after all registrations of the program, in the order in which they were made. -/
def globalList (regs : List Node) : List Node := regs.foldl register []

/-- Where the thread is. -/
inductive Phase where
  /-- It has no guard yet. -/
  | idle
  /-- In `RunFtors(true)` of its constructor (init.cc 47-54, called at 157), with these nodes to go. -/
  | ctor (rest : List Node)
  /-- The constructor has returned. -/
  | made
  /-- In `RunFtors(false)` of its destructor (165), with these nodes to go. -/
  | dtor (rest : List Node)
  /-- The destructor has returned. -/
  | gone
deriving DecidableEq

/-- `main_init_guard_count` (58), the threads, the functions that ran, oldest first, and whether a CHECK failed. -/
structure S where
  count : Int
  ths : List Phase
  log : List Nat
  failed : Bool
deriving DecidableEq

def init (n : Nat) : S := ⟨0, List.replicate n .idle, [], false⟩

/-- One step of thread `i`; `gl` is the global list. -/
def step (gl : List Node) (s : S) (i : Nat) : Option S :=
  match s.ths[i]? with
  | none => none
  -- `if (main_init_guard_count.fetch_add(1)) return;` (118-119)
  | some .idle => some { s with count := s.count + 1, ths := s.ths.set i (if s.count ≠ 0 then .made else .ctor gl) }
  -- the loop of `RunFtors(true)` (47-54)
  | some (.ctor []) => some { s with ths := s.ths.set i .made }
  | some (.ctor (n :: r)) => some { s with ths := s.ths.set i (.ctor r), log := if n.isCtor = true then s.log ++ [n.id] else s.log }
  -- `count = fetch_add(-1); CHECK_GT(count, 0); if (count > 1) return;` (161-164)
  | some .made => some { s with count := s.count - 1, failed := s.failed || decide (s.count ≤ 0),
                                ths := s.ths.set i (if 1 < s.count then .gone else .dtor gl) }
  -- the loop of `RunFtors(false)`
  | some (.dtor []) => some { s with ths := s.ths.set i .gone }
  | some (.dtor (n :: r)) => some { s with ths := s.ths.set i (.dtor r), log := if n.isCtor = false then s.log ++ [n.id] else s.log }
  | some .gone => none

end Verif.Init
