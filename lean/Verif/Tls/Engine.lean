import Verif.Common.Run

/-!
# The TLS engine, and pushing user data into it

`/repo/util/tls/tls_engine.{h,cc}` and `TlsSocket::PushUserDataToEngine` (tls_socket.cc 331-379).

OpenSSL itself is not modelled. The engine answers every call from a script, which is part of its state;
theorems hold for every script, so for everything OpenSSL might answer. What is fixed:
* `SSL_write` takes a non-empty prefix of what it is given or takes nothing (partial writes are enabled),
  `SSL_read` returns a non-empty piece of plain text that fits.
* Any call may produce cipher text, which is queued in the BIO behind what is there; a call that takes
  plain text produces a record, so at least one byte.
* WANT_WRITE is answered only with cipher text queued (the BIO is full).
The lists `produced`, `accepted` and `given` record what went through the engine.

Simplifications: bytes are natural numbers; the BIO pair is a pair of unbounded queues and
`PeekOutputBuf` shows all of its queue, where the real one may stop at the end of a ring; `state_` and
the error queue are left out; buffers are shorter than `INT_MAX`.
-/
namespace Verif.Tls

/-- `Engine::OpResult`: a positive count, or one of the opcodes (tls_engine.h 19-52). -/
inductive Ret
  | took (n : Nat) | gave (bs : List Nat) | needRead | needWrite | abrupt | graceful
deriving DecidableEq, Repr

/-- One scripted answer: cipher text produced during the call, and its result. -/
structure ERes where
  emit : List Nat
  ret : Ret
deriving DecidableEq, Repr

/-- The engine. -/
structure Eng where
  script : List ERes
  /-- cipher text to send (`OutputPending`, `PeekOutputBuf`) -/
  out : List Nat
  /-- cipher text received (`CommitInput`) -/
  fed : List Nat
  produced : List Nat
  accepted : List Nat
  given : List Nat
deriving DecidableEq, Repr

/-- A new engine (tls_engine.cc 41-62). -/
def Eng.init (script : List ERes) : Eng :=
  { script, out := [], fed := [], produced := [], accepted := [], given := [] }

/-- What a call to the engine adds to its output queue. -/
def Eng.pop (e : Eng) (r : ERes) (rs : List ERes) : Eng :=
  { e with script := rs, out := e.out ++ r.emit, produced := e.produced ++ r.emit }

/-- An opcode of the engine that is not a count. -/
inductive Op | needRead | needWrite | abrupt | graceful
deriving DecidableEq, Repr

/-- How a call failed. -/
def Eng.op (e : Eng) : Ret → Op
  | .needRead => .needRead
  | .needWrite => if e.out = [] then .needRead else .needWrite
  | .graceful => .graceful
  | _ => .abrupt

/-- `Engine::Write` (149-158): how many bytes were taken, or an opcode. The CHECK of line 150 is left
to the caller. -/
def Eng.write (e : Eng) (buf : List Nat) : Except Op Nat × Eng :=
  match e.script with
  | [] => (.error .abrupt, e)
  | r :: rs =>
    match r.ret with
    | .took n =>
      (.ok (min (n + 1) buf.length),
        { e.pop { r with emit := if r.emit = [] then [0] else r.emit } rs with accepted := e.accepted ++ buf.take (min (n + 1) buf.length) })
    | x => (.error ((e.pop r rs).op x), e.pop r rs)

/-- `Engine::Read` (160-177) for `n > 0` bytes. -/
def Eng.read (e : Eng) (n : Nat) : Except Op (List Nat) × Eng :=
  match e.script with
  | [] => (.error .abrupt, e)
  | r :: rs =>
    match r.ret with
    | .gave bs =>
      if bs.take n = [] then (.error .abrupt, e.pop r rs)
      else (.ok (bs.take n), { e.pop r rs with given := e.given ++ bs.take n })
    | x => (.error ((e.pop r rs).op x), e.pop r rs)

/-- `Engine::Shutdown` (113-147): whether its result is not zero. -/
def Eng.shutdown (e : Eng) : Bool × Eng :=
  match e.script with
  | [] => (true, e)
  | r :: rs => ((match r.ret with | .took _ | .gave _ => false | _ => true), e.pop r rs)

/-- `ConsumeOutputBuf` (87-90). -/
def Eng.consume (e : Eng) (k : Nat) : Eng := { e with out := e.out.drop k }

/-- `CommitInput` (102-106) of bytes that were read into the buffer of `PeekInputBuf`. -/
def Eng.commit (e : Eng) (bs : List Nat) : Eng := { e with fed := e.fed ++ bs }

/-- `kBatchSize` (tls_socket.cc 336). -/
def batchSize : Nat := 1392

/-- The loop that fills the batch buffer (351-356). -/
def grow (acc : List Nat) : List (List Nat) → List Nat × List (List Nat)
  | [] => (acc, [])
  | v :: rest => if acc.length + v.length ≤ batchSize then grow (acc ++ v) rest else (acc, v :: rest)

/-- The next buffer given to the engine, and the vectors that remain (342-364). -/
def chunk : List (List Nat) → List Nat × List (List Nat)
  | [] => ([], [])
  | v :: rest => if batchSize ≤ v.length ∨ rest = [] then (v, rest) else grow v rest

/-- `PushResult` (tls_socket.h). -/
structure Push where
  written : Nat
  op : Option Op
  eng : Eng
deriving DecidableEq, Repr

/-- The loop of `PushUserDataToEngine` (338-377). `none` is the failed CHECK of `Engine::Write`, on an
empty buffer. Every round removes at least one vector, so `fuel` is their number. -/
def pushLoop : Nat → Eng → Nat → List (List Nat) → Option Push
  | 0, e, w, _ => some ⟨w, none, e⟩
  | _ + 1, e, w, [] => some ⟨w, none, e⟩
  | fuel + 1, e, w, v :: l =>
    let c := chunk (v :: l)
    if c.1 = [] then none
    else match e.write c.1 with
    | (.error op, e1) => some ⟨w, some op, e1⟩
    | (.ok k, e1) => if k = c.1.length then pushLoop fuel e1 (w + k) c.2 else some ⟨w + k, none, e1⟩

/-- `PushUserDataToEngine` (331-379). -/
def push (e : Eng) (iov : List (List Nat)) : Option Push := pushLoop iov.length e 0 iov

/-- The loop of `AdvanceIovec` (iovec_utils.cc 11-30); `none` is its failed CHECK. -/
def advance : List (List Nat) → Nat → Option (List (List Nat))
  | l, 0 => some l
  | [], _ + 1 => none
  | v :: l, n + 1 => if v.length ≤ n + 1 then advance l (n + 1 - v.length) else some (v.drop (n + 1) :: l)

/-- `GetIovecTotalBytes` (iovec_utils.cc 41-51). -/
def total (iov : List (List Nat)) : Nat := (iov.map List.length).sum

end Verif.Tls
