import Verif.Common.TS
/-!
`util::ProactorPool` (util/fibers/proactor_pool.cc, util/proactor_pool.h): the pinning of threads to CPUs, the choice of the next
proactor, the pool's strings, and the calls that run a function on all threads.

Simplifications. Linux. The read-write lock of the strings excludes (C61), so what is done with it is one step. A function sent
to a thread is run once by it (C27, C29), in any order between the threads. The counter that the caller waits for is a
number (C22).
-/
namespace Verif.Pool
open Verif.Common

/-! ### Pinning (proactor_pool.cc 216-299) -/

/-- The loop that collects the online CPUs (235-246): the array and `abs_cpu_index` after it. The array is filled from the left, so
it is a list that grows. -/
def scan (n : Nat) : List Bool → Nat → List Nat → List Nat × Nat
  | [], abs, arr => (arr, abs)
  | b :: bs, abs, arr =>
    if b then
      if (arr ++ [abs]).length = n then (arr ++ [abs], abs) else scan n bs (abs + 1) (arr ++ [abs])
    else scan n bs (abs + 1) arr

/-- `CPU_COUNT` -/
def cpuCount (online : List Bool) : Nat := online.count true

/-- `cpu_threads_.resize(m)` -/
def resize (ct : List (List Nat)) (m : Nat) : List (List Nat) := ct.take m ++ List.replicate (m - ct.length) []

/-- The loop over the threads with pinning (255-286): `rc i` says whether `pthread_setaffinity_np` succeeds for thread `i`. `none`:
a `CHECK` fails or an index is outside. -/
def pin (arr : List Nat) (n : Nat) (rc : Nat → Bool) : List Nat → List (List Nat) → Option (List (List Nat))
  | [], ct => some ct
  | i :: is, ct =>
    match arr[i % n]? with
    | none => none
    | some c =>
      match ct[c]? with
      | none => none
      | some l => pin arr n rc is (if rc i then ct.set c (l ++ [i]) else ct)

/-- `SetupProactors` (216-290) for a pool of `size` threads: `cpu_threads_` after it. -/
def setup (ct : List (List Nat)) (online : List Bool) (size : Nat) (affine : Bool) (rc : Nat → Bool) : Option (List (List Nat)) :=
  let n := cpuCount online
  let r := scan n online 0 []
  if r.1.length = n then
    let ct := resize ct (r.2 + 1)
    if affine then pin r.1 n rc (List.range size) ct else some ct
  else none

/-- `MapCpuToThreads` (292-299) -/
def mapCpu (ct : List (List Nat)) (c : Nat) : List Nat := if c ≥ ct.length then [] else (ct[c]?).getD []

/-! ### `GetNextProactor` (169-182) -/

/-- A caller: before the load, or between the load and the store. -/
inductive NPc
  | idle
  | loaded (i : Nat)
deriving DecidableEq, Repr

structure N where
  size : Nat
  /-- `next_io_context_` -/
  next : Nat
  cs : List NPc
  /-- the proactors that calls have returned, for the statements -/
  got : List Nat
deriving DecidableEq, Repr

inductive NAct
  | load (c : Nat)
  | store (c : Nat)
deriving DecidableEq, Repr

def nstep (s : N) : NAct → Option N
  | .load c => match s.cs[c]? with
    | some .idle => some { s with cs := s.cs.set c (.loaded s.next) }
    | _ => none
  | .store c => match s.cs[c]? with
    | some (.loaded i) =>
      some { s with next := if i + 1 ≥ s.size then 0 else i + 1, cs := s.cs.set c .idle, got := s.got ++ [i] }
    | _ => none

def NInit (s : N) : Prop := 0 < s.size ∧ s.next = 0 ∧ s.got = [] ∧ ∀ p ∈ s.cs, p = .idle

/-! ### `GetString` (184-214) -/

abbrev Str := List Nat

/-- A call for `src`: about to look with the read lock, about to look again with the write lock, or done: the block that was
returned, `none` for an empty string, which is returned as it is. -/
inductive GPc
  | look (src : Str)
  | add (src : Str)
  | done (src : Str) (blk : Option Nat)
deriving DecidableEq, Repr

structure G where
  /-- `str_set_`: strings and the number of the block that has their bytes -/
  set : List (Str × Nat)
  /-- the blocks of `str_arena_` -/
  arena : List Str
  cs : List GPc
deriving DecidableEq, Repr

inductive GAct
  | call (src : Str)
  | step (c : Nat)
deriving DecidableEq, Repr

def gfind (set : List (Str × Nat)) (src : Str) : Option Nat := (set.find? fun e => e.1 == src).map Prod.snd

def gstep (s : G) : GAct → Option G
  | .call src => some { s with cs := s.cs ++ [if src = [] then .done src none else .look src] }
  | .step c => match s.cs[c]? with
    | some (.look src) => match gfind s.set src with
      | some b => some { s with cs := s.cs.set c (.done src (some b)) }
      | none => some { s with cs := s.cs.set c (.add src) }
    | some (.add src) => match gfind s.set src with
      | some b => some { s with cs := s.cs.set c (.done src (some b)) }
      | none => some { s with
          set := s.set ++ [(src, s.arena.length)], arena := s.arena ++ [src], cs := s.cs.set c (.done src (some s.arena.length)) }
    | _ => none

def G.init : G := ⟨[], [], []⟩

/-! ### Running a function on all threads (proactor_pool.h 69-213) -/

/-- A call of `AwaitBrief` or `AwaitFiberOnAll` on a pool of `size` threads: how many threads the function was sent to, those that
have it to run, those that ran it, the counter, and whether the call returned. -/
structure A where
  size : Nat
  sent : Nat
  pending : List Nat
  ran : List Nat
  cnt : Nat
  ret : Bool
deriving DecidableEq, Repr

inductive AAct
  | send
  | run (i : Nat)
  | ret
deriving DecidableEq, Repr

def astep (s : A) : AAct → Option A
  | .send => if s.sent < s.size then some { s with sent := s.sent + 1, pending := s.pending ++ [s.sent] } else none
  | .run i => if i ∈ s.pending then some { s with pending := s.pending.erase i, ran := s.ran ++ [i], cnt := s.cnt - 1 } else none
  | .ret => if s.sent = s.size ∧ s.cnt = 0 ∧ s.ret = false then some { s with ret := true } else none

def AInit (s : A) : Prop := s = ⟨s.size, 0, [], [], s.size, false⟩

/-! ### `Run`, `Stop` and the destructor (125-167) -/

/-- The pool's state: running or not, the proactors that exist, those that `proactor_` points to, and the CPU table. -/
structure P where
  size : Nat
  run : Bool
  alive : List Nat
  slots : List Nat
  made : Nat
  ct : List (List Nat)
deriving DecidableEq, Repr

/-- `Run` (136-150); `none` if the `CHECK` fails. -/
def P.start (s : P) (online : List Bool) (rc : Nat → Bool) : Option P :=
  if s.run then none
  else match setup s.ct online s.size true rc with
    | none => none
    | some ct =>
      let fresh := (List.range s.size).map (s.made + ·)
      some { s with run := true, alive := s.alive ++ fresh, slots := fresh, made := s.made + s.size, ct := ct }

/-- `Stop` (152-167) -/
def P.stop (s : P) : P := { s with run := false }

/-- The destructor (125-130): the proactors that are left. -/
def P.destroy (s : P) : List Nat := s.alive.filter fun p => !s.slots.contains p

def P.new (size : Nat) : P := ⟨size, false, [], [], 0, []⟩

end Verif.Pool
