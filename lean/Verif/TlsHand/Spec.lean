import Verif.TlsHand.Model
/-!
# Vocabulary of the handshake properties: what a log says
-/
namespace Verif.TlsHand

/-- All bytes that the engine put out. -/
def produced (l : List Ev) : List Nat := l.flatMap fun | .hand _ bs => bs | _ => []

/-- All bytes that the socket below took. -/
def sent (l : List Ev) : List Nat := l.flatMap fun | .sent bs => bs | _ => []

/-- All bytes that came from the peer. -/
def received (l : List Ev) : List Nat := l.flatMap fun | .got bs => bs | _ => []

/-- How often the socket below was connected. -/
def connects (l : List Ev) : Nat := l.countP fun | .conn _ => true | _ => false

/-- A socket before the handshake. -/
def fresh (isOpen : Bool) (pre : List Nat) (wr : List WAns) (rd : List RAns) : S := { isOpen := isOpen, fed := pre, wr := wr, rd := rd }

/-- Why a call fails: the last thing that happened. -/
def Cause (eof : Err) (e : Err) : Ev → Prop
  | .hand .abrupt _ | .hand .graceful _ => e = eof
  | .conn (some x) => e = .net x
  | .sendErr x => e = .net x
  | .gotErr x => e = .net x
  | .gotEof => e = .aborted
  | _ => False

/-- The engine asks to write only when it has put something out. -/
def Sane (E : Engine) : Prop := ∀ k fed, (E k fed).1 = .needWrite → (E k fed).2 ≠ []

end Verif.TlsHand
