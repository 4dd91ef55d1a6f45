import Verif.Common.TS
/-!
# The profiling page

`ProfilezHandler` and `HandleCpuProfile` (`/repo/util/http/profilez_handler.cc` 36-139). Every request runs on a
thread of its own (line 122), and the requests share `last_profile_suffix` without a lock. The steps below are
the accesses to it and the calls of the profiler. Simplified: accesses are sequentially consistent (they are
plain, so a concurrent pair is a data race besides); a profile is named by the second in which it was started;
pprof is not modelled.
-/
namespace Verif.Profilez
open Verif.Common

/-- Where a request is. -/
inductive Pc
  | idle
  /-- `profile=on`: before lines 49, 54 and 55. -/
  | onCheck | onSet | onStart (file : Nat)
  /-- Otherwise: before lines 65, 66, 79 and 88. -/
  | offStop | offCheck | offRead | offClear (file : Nat)
  /-- The response is complete, before `done.Notify()`. -/
  | filled
  | notified
deriving DecidableEq, Repr

/-- What a request answers. -/
inductive Ev
  | started (file : Nat)
  | already
  | redirect (file : Nat)
  | off
deriving DecidableEq, Repr

structure S where
  pc : Nat → Pc
  /-- The handler's fiber has returned the response. -/
  returned : Nat → Bool
  now : Nat
  /-- `last_profile_suffix`. -/
  suffix : Option Nat
  /-- The file that the profiler writes. -/
  prof : Option Nat
  /-- The files it has completed. -/
  files : List Nat
  log : List Ev
  /-- A thread wrote to a response that was returned already. -/
  late : Bool

def S.init : S :=
  { pc := fun _ => .idle, returned := fun _ => false, now := 0, suffix := none, prof := none, files := [], log := [], late := false }

inductive Act
  | request (t : Nat) (on : Bool)
  | go (t : Nat)
  | ret (t : Nat)
  | tick (d : Nat)

/-- The end of `HandleCpuProfile`: the response is written. -/
def answer (s : S) (t : Nat) (e : Ev) : S :=
  { s with pc := upd s.pc t .filled, log := s.log ++ [e], late := s.late || s.returned t }

/-- One step of the thread of request `t`. -/
def go (s : S) (t : Nat) : Option S :=
  match s.pc t with
  | .idle => none
  | .onCheck =>
    match s.suffix with
    | some _ => some (answer s t .already)
    | none => some { s with pc := upd s.pc t .onSet }
  | .onSet => some { s with suffix := some s.now, pc := upd s.pc t (.onStart s.now) }
  /- `ProfilerStart` fails while a profile is being written; the result is only logged. -/
  | .onStart f => some (answer { s with prof := some (s.prof.getD f) } t (.started f))
  | .offStop => some { s with prof := none, files := s.files ++ s.prof.toList, pc := upd s.pc t .offCheck }
  | .offCheck =>
    match s.suffix with
    | none => some (answer s t .off)
    | some _ => some { s with pc := upd s.pc t .offRead }
  /- An empty suffix would name the file without it; kept as the second 0. -/
  | .offRead => some { s with pc := upd s.pc t (.offClear (s.suffix.getD 0)) }
  | .offClear f => some (answer { s with suffix := none } t (.redirect f))
  | .filled => some { s with pc := upd s.pc t .notified }
  | .notified => none

/-- The thread of `t` has nothing more to do with the profile. -/
def rest (s : S) (t : Nat) : Bool := s.pc t = .idle || s.pc t = .filled || s.pc t = .notified

def step (s : S) : Act → Option S
  | .request t on =>
    if s.pc t = .idle then some { s with pc := upd s.pc t (if on then .onCheck else .offStop) } else none
  | .go t => go s t
  /- Line 137: `done.Wait()` lets the handler return. -/
  | .ret t => if s.pc t = .notified then some { s with returned := upd s.returned t true } else none
  | .tick d => some { s with now := s.now + d }

end Verif.Profilez
