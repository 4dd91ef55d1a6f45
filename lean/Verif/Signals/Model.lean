import Verif.Common.TS
/-!
# Model of signal callbacks (util/fibers/proactor_base.cc 37-66, 300-338)

Registrations and clearings of one signal, arrivals of signals and the runs of dispatched callbacks happen in any order. A list of
signals is registered or cleared one after the other. Simplified: a registration or a clearing of one signal is one step (a signal that
arrives in its middle finds the handler not yet, or no longer, useful and is lost, as it would be before or after); the task queue of a
proactor is a FIFO (C29); whether `Dispatch` may be called inside a signal handler at all is not modelled.
-/
namespace Verif.Signals

/-- `kNumSig` on Linux, `_NSIG` (15). -/
def kNumSig : Nat := 65

/-- What the kernel does with a signal. -/
inductive Disp where
  | dfl | ign | handler
deriving DecidableEq

/-- A dispatched callback, as `SigAction` creates it (59-62): on which proactor, for which signal. `cb` is history: the callback that
was registered when the signal arrived. -/
structure Task where
  p : Nat
  sig : Nat
  cb : Nat
deriving DecidableEq

/-- `map`: `signal_map` (40-45), the proactor and the callback of a signal. `pend`: dispatched and not yet run. `log`: the calls that were
made, oldest first, with the callback that was called. History: `raised`, what should be called; `dirty`: a signal was cleared while a
callback of it was pending. `failed`: a CHECK failed; `crashed`: an empty `std::function` was called; `oob`: `signal_map` was accessed
outside its bounds. -/
structure S where
  map : Nat → Option (Nat × Nat) := fun _ => none
  disp : Nat → Disp := fun _ => .dfl
  pend : List Task := []
  log : List Task := []
  raised : List Task := []
  dirty : Bool := false
  failed : Bool := false
  crashed : Bool := false
  oob : Bool := false

/-- `sigaction` accepts 1 to 64 without SIGKILL, SIGSTOP and the two that glibc keeps for itself. -/
def accepted (sig : Nat) : Bool := sig != 0 && sig != 9 && sig != 19 && sig != 32 && sig != 33

inductive Act where
  | reg (sig p cb : Nat)
  | clear (sig : Nat) (ignore : Bool)
  | raise (sig : Nat)
  | run (p : Nat)
deriving DecidableEq

def setMap (m : Nat → Option (Nat × Nat)) (sig : Nat) (v : Option (Nat × Nat)) : Nat → Option (Nat × Nat) := fun j => if j = sig then v else m j

def setDisp (m : Nat → Disp) (sig : Nat) (v : Disp) : Nat → Disp := fun j => if j = sig then v else m j

/-- One round of the loop of `RegisterSignal` (311-317). -/
def register (s : S) (sig p cb : Nat) : S :=
  if kNumSig ≤ sig then { s with oob := true }
  else if (s.map sig).isSome then { s with failed := true }
  else
    let s := { s with map := setMap s.map sig (some (p, cb)) }
    if accepted sig then { s with disp := setDisp s.disp sig .handler } else { s with failed := true }

/-- One round of the loop of `ClearSignal` (327-337). -/
def clear (s : S) (sig : Nat) (ignore : Bool) : S :=
  if kNumSig ≤ sig then { s with oob := true }
  else if (s.map sig).isNone then s
  else { s with map := setMap s.map sig none, disp := setDisp s.disp sig (if ignore then .ign else .dfl),
                dirty := s.dirty || s.pend.any (fun t => t.sig == sig) }

/-- `SigAction` (54-66). -/
def sigAction (s : S) (sig : Nat) : S :=
  match s.map sig with
  | some (p, cb) => { s with pend := s.pend ++ [⟨p, sig, cb⟩], raised := s.raised ++ [⟨p, sig, cb⟩] }
  | none => s

/-- The first task of proactor `p` runs: `item.cb(signal)` (59) with whatever `item` holds now. -/
def runTask (s : S) (p : Nat) : Option S :=
  match s.pend.find? (fun t => t.p == p) with
  | none => none
  | some t =>
    let s := { s with pend := s.pend.eraseP (fun t => t.p == p) }
    match s.map t.sig with
    | some (_, cb) => some { s with log := s.log ++ [⟨p, t.sig, cb⟩] }
    | none => some { s with crashed := true }

def step (s : S) (a : Act) : Option S :=
  if s.failed || s.crashed || s.oob then none
  else match a with
  | .reg sig p cb => some (register s sig p cb)
  | .clear sig ign => some (clear s sig ign)
  | .raise sig => some (if s.disp sig = .handler then sigAction s sig else s)
  | .run p => runTask s p

end Verif.Signals
