/-!
# Model of the TLS handshake (util/tls/tls_socket.cc 79-88, 126-200, 384-485, util/tls/tls_engine.cc 68-113)

`Accept` and `Connect` of `TlsSocket`, on one fiber with no other operation of the socket in progress. The engine is arbitrary: what a
call of `Handshake` answers and which bytes it produces is any function of the number of the call and of all bytes it was fed. What the
socket below answers is given as lists; a fiber that waits for an answer that never comes is `blocked`. Simplified: the size of the
engine's buffers is not bounded here; `n` bounds the number of rounds, as an engine that asks to write without anything to write makes the
code spin.
-/
namespace Verif.TlsHand

/-- Answers of `Engine::Handshake` (tls_engine.cc 110-113, 250-300). -/
inductive HRes where
  | done | needRead | needWrite | abrupt | graceful
deriving DecidableEq

/-- The answer of call `k` after the bytes `fed`, and the bytes it puts out. -/
abbrev Engine := Nat → List Nat → HRes × List Nat

/-- Answers of `WriteSome` and `Recv` of the socket below. -/
inductive WAns where
  | took (k : Nat) | err (e : Nat)
deriving DecidableEq

inductive RAns where
  | data (bs : List Nat) | eof | err (e : Nat)
deriving DecidableEq

/-- Error codes that the calls return. -/
inductive Err where
  | reset | refused | aborted
  | net (e : Nat)
deriving DecidableEq

/-- What happened, in order. -/
inductive Ev where
  | hand (r : HRes) (out : List Nat)
  | conn (e : Option Nat)
  | sent (bs : List Nat)
  | sendErr (e : Nat)
  | got (bs : List Nat)
  | gotEof
  | gotErr (e : Nat)
deriving DecidableEq

/-- `out`: the engine's output buffer; `fed`: what was committed to it; `isOpen`: the socket below is open. -/
structure S where
  out : List Nat := []
  fed : List Nat := []
  calls : Nat := 0
  isOpen : Bool := true
  wr : List WAns := []
  rd : List RAns := []
  log : List Ev := []
deriving DecidableEq

inductive Res where
  | ok
  | fail (e : Err)
  /-- waits for the socket below -/
  | blocked
  /-- a CHECK fails -/
  | crash
  | rounds
deriving DecidableEq

def S.emit (s : S) (e : Ev) : S := { s with log := s.log ++ [e] }

/-- The loop of `HandleUpstreamWrite` (463-480). -/
def sendLoop (s : S) : List WAns → Res × S
  | [] => (.blocked, { s with wr := [] })
  | .err e :: l => (.fail (.net e), { s with wr := l }.emit (.sendErr e))
  | .took k :: l =>
    if k = 0 then (.crash, { s with wr := l })
    else
      let s' := { s with out := s.out.drop k, wr := l }.emit (.sent (s.out.take k))
      if s'.out.isEmpty then (.ok, s') else sendLoop s' l

/-- `MaybeSendEngineOutput` (384-407), no write in progress. -/
def sendOutput (s : S) : Res × S := if s.out.isEmpty then (.ok, s) else sendLoop s s.wr

/-- `HandleUpstreamRead` (409-451), no read in progress. -/
def readInput (s : S) : Res × S :=
  match sendOutput s with
  | (.ok, s) =>
    match s.rd with
    | [] => (.blocked, s)
    | .err e :: l => (.fail (.net e), { s with rd := l }.emit (.gotErr e))
    | .eof :: l => (.fail .aborted, { s with rd := l }.emit .gotEof)
    | .data bs :: l =>
      if bs.isEmpty then (.fail .aborted, { s with rd := l }.emit .gotEof)
      else (.ok, { s with rd := l, fed := s.fed ++ bs }.emit (.got bs))
  | r => r

/-- `HandleEngineOp` (487-508) for the two answers that reach it. -/
def handleOp (s : S) : HRes → Res × S
  | .needRead => readInput s
  | .needWrite => sendOutput s
  | _ => (.ok, s)

/-- `Engine::Handshake`. -/
def handshake (E : Engine) (s : S) : HRes × S :=
  let r := E s.calls s.fed
  (r.1, { s with calls := s.calls + 1, out := s.out ++ r.2 }.emit (.hand r.1 r.2))

/-- The next socket's `Connect`, if the socket is not open (174-176). -/
def connectNext (c : Option Nat) (s : S) : Res × S :=
  if s.isOpen then (.ok, s)
  else match c with
    | none => (.ok, { s with isOpen := true }.emit (.conn none))
    | some e => (.fail (.net e), s.emit (.conn (some e)))

/-- `Accept` (126-161) and `Connect` (163-200): `eof` is the error for an engine that gives up, `c` the outcome of connecting, which `Accept`,
called on an open socket, does not use. -/
def loop (E : Engine) (eof : Err) (c : Option Nat) : Nat → S → Res × S
  | 0, s => (.rounds, s)
  | n + 1, s =>
    let h := handshake E s
    if h.1 = .abrupt ∨ h.1 = .graceful then (.fail eof, h.2)
    else
      match connectNext c h.2 with
      | (.ok, s) =>
        match sendOutput s with
        | (.ok, s) =>
          if h.1 = .done then (.ok, s)
          else match handleOp s h.1 with
            | (.ok, s) => loop E eof c n s
            | r => r
        | r => r
      | r => r

def accept (E : Engine) (n : Nat) (s : S) : Res × S := loop E .reset none n s

def connect (E : Engine) (c : Option Nat) (n : Nat) (s : S) : Res × S := loop E .refused c n s

/-- `InitSSL` (79-88): `cap` is the room in the input buffer; `none` is a failed CHECK. -/
def initSSL (cap : Nat) (pre : List Nat) (s : S) : Option S :=
  if pre.length ≤ cap then some { s with fed := s.fed ++ pre } else none

end Verif.TlsHand
