import Verif.Common.TS
/-!
The HTTP client, the pool of clients and the sender with retries (util/http/http_client.{h,cc}, https_client_pool.cc,
util/cloud/utils.cc).

Simplifications. A request is a number. What goes over a connection is the list of requests that were written completely; the server
answers each of them, in order. Boost.Beast's parsing is left out: reading takes the next response from the connection, and what a
read or a write ends with is part of the input. One client is used by one fiber at a time.
-/
namespace Verif.Http
open Verif.Common

/-! ### `Client::Send` and `Recv` (http_client.h 90-159) -/

/-- How a write or a read ends: well, with an error for which `IsIoError` (91-94) holds, or with one of the others (`need_buffer`,
`body_limit`). -/
inductive Out
  | ok
  | io
  | limit
deriving DecidableEq, Repr

/-- A connection: the requests written, how many responses were read to their end, whether the one after these was read in part, and
whether the socket is open. -/
structure Conn where
  wire : List Nat
  pos : Nat
  part : Bool
  isOpen : Bool
deriving DecidableEq, Repr

/-- `HandleError` (96-101) -/
def handle (c : Conn) (o : Out) : Conn := if o = .io then { c with isOpen := false } else c

/-- The loop of `Send` (136-150) with `k` rounds left: `w` says how each write ends, `o` is `ec`. On a closed socket a write fails. -/
def sendLoop (req : Nat) : Nat → List Out → Out → Conn → Out × List Out × Conn
  | 0, w, o, c => (o, w, c)
  | k + 1, w, _, c =>
    let o := if c.isOpen then w.headD .ok else .io
    let c := if o = .ok then { c with wire := c.wire ++ [req] } else c
    if o = .io then (o, w.tail, c) else sendLoop req k w.tail o c

/-- `Send(req)` (136-150): `ec`, the ends of writes that are left, and the connection. -/
def send1 (retry : Nat) (req : Nat) (w : List Out) (c : Conn) : Out × List Out × Conn :=
  let r := sendLoop req retry w .ok c
  (r.1, r.2.1, handle r.2.2 r.1)

/-- What a call returns: the response to a request, something that is not a response but what an earlier read has left, an error,
or no error although nothing was read. -/
inductive Res
  | resp (req : Nat)
  | junk
  | err (o : Out)
  | nothing
deriving DecidableEq, Repr

/-- What `h2::read` gives if it ends well: the next response. -/
def nextResp (c : Conn) : Res × Conn :=
  if c.part then (.junk, { c with part := false, pos := c.pos + 1 })
  else match c.wire[c.pos]? with
    | some r => (.resp r, { c with pos := c.pos + 1 })
    | none => (.nothing, c)

/-- The loop of `Send(req, resp)` (113-134) with `k` rounds left, then `HandleError`. -/
def sendRecvLoop (retry req : Nat) : Nat → List Out → List Out → Out → Conn → Res × Conn
  | 0, _, _, o, c => (if o = .ok then .nothing else .err o, handle c o)
  | k + 1, w, r, _, c =>
    let s := send1 retry req w c
    if s.1 = .io then (.err .io, handle s.2.2 .io)
    else match (if s.2.2.isOpen then r.headD .ok else .io) with
      | .ok => nextResp s.2.2
      | .limit => (.err .limit, { s.2.2 with part := true })
      | .io => sendRecvLoop retry req k s.2.1 r.tail .io s.2.2

/-- `Send(req, resp)` (113-134) -/
def sendRecv (retry req : Nat) (w r : List Out) (c : Conn) : Res × Conn := sendRecvLoop retry req retry w r .ok c

/-- A call of the user: the request and how its writes and reads end. -/
structure Call where
  req : Nat
  w : List Out
  r : List Out
deriving DecidableEq, Repr

/-- Calls of `Send(req, resp)` one after another on one client. -/
def calls (retry : Nat) : List Call → Conn → List Res × Conn
  | [], c => ([], c)
  | x :: xs, c =>
    let a := sendRecv retry x.req x.w x.r c
    let b := calls retry xs a.2
    (a.1 :: b.1, b.2)

def Conn.new : Conn := ⟨[], 0, false, true⟩

/-! ### `Connect` and `Reconnect` (http_client.cc 54-94, 164-194) -/

/-- What the client has: no socket, a plain one or an encrypted one. -/
inductive Sock
  | none
  | plain
  | tls
deriving DecidableEq, Repr

/-- `Client::Reconnect` (64-94), if everything ends well. -/
def reconnect (_ : Sock) : Sock := .plain

/-- `TlsClient::Connect` (164-194): `hs` says whether the handshake ends well. -/
def tlsConnect (s : Sock) (hs : Bool) : Sock :=
  match reconnect s with
  | .plain => if hs then .tls else .none
  | x => x

/-! ### `ClientPool` (https_client_pool.cc) -/

/-- Clients are numbered in the order in which they were connected. -/
structure Pl where
  /-- `available_handles_` -/
  avail : List Nat
  /-- clients that are in the hands of users -/
  held : List Nat
  /-- calls of `GetHandle` that are connecting -/
  pend : Nat
  /-- `existing_handles_` -/
  existing : Nat
  /-- clients that were deleted -/
  dead : List Nat
  made : Nat
  /-- `IsConnected` of each client -/
  conn : Nat → Bool
  /-- a `CHECK` failed -/
  bad : Bool
  /-- a client was closed while it was not in the hands of a user -/
  misuse : Bool

inductive PAct
  | get
  | connected (ok : Bool)
  | close (c : Nat)
  | release (c : Nat)
  | closeIdle (c : Nat)
deriving DecidableEq, Repr

/-- The loop of `GetHandle` (44-58): the clients thrown away, the client found, and the clients left. -/
def pull (conn : Nat → Bool) : List Nat → List Nat × Option Nat × List Nat
  | [] => ([], none, [])
  | c :: cs => if conn c then ([], some c, cs) else let r := pull conn cs; (c :: r.1, r.2)

/-- `GetHandle` up to the blocking `Connect` (43-58), the rest of it (60-97), the user closing a client's socket, the deleter of a
handle (14-28), and a client closed by someone else. -/
def pstep (s : Pl) : PAct → Option Pl
  | .get =>
    let r := pull s.conn s.avail
    match r.2.1 with
    | some c => some { s with avail := r.2.2, held := s.held ++ [c], dead := s.dead ++ r.1 }
    | none => some { s with avail := r.2.2, pend := s.pend + 1, dead := s.dead ++ r.1 }
  | .connected ok =>
    if s.pend = 0 then none
    else if ok then
      some { s with
        pend := s.pend - 1, held := s.held ++ [s.made], made := s.made + 1, conn := upd s.conn s.made true, existing := s.existing + 1 }
    else some { s with pend := s.pend - 1 }
  | .close c => if c ∈ s.held then some { s with conn := upd s.conn c false } else none
  | .release c =>
    if c ∈ s.held then
      if s.existing = 0 then some { s with bad := true }
      else if s.conn c then some { s with held := s.held.erase c, avail := s.avail ++ [c] }
      else some { s with held := s.held.erase c, existing := s.existing - 1, dead := s.dead ++ [c] }
    else none
  | .closeIdle c => if c ∈ s.avail then some { s with conn := upd s.conn c false, misuse := true } else none

def Pl.init : Pl := ⟨[], [], 0, 0, [], 0, fun _ => false, false, false⟩

/-- The destructor (35-41): whether its `DCHECK` holds, and the clients deleted in the end. -/
def Pl.destroy (s : Pl) : Bool × List Nat := (decide (s.existing = s.avail.length), s.dead ++ s.avail)

/-- Host and port of a domain in `GetHandle` (60-67), with the default port (72, 80). -/
def splitDomain (tls : Bool) (d : List Nat) : List Nat × List Nat :=
  let suf := (d.reverse.takeWhile (· ≠ 58)).reverse
  let r := if suf.length = d.length then (d, []) else (d.take (d.length - suf.length - 1), suf)
  (r.1, if r.2 = [] then (if tls then [52, 52, 51] else [56, 48]) else r.2)

/-- The number of digits, most significant first. -/
def number : List Nat → Nat → Nat
  | [], n => n
  | c :: cs, n => number cs (n * 10 + (c - 48))

/-- The port's checks in `Connect` (http_client.cc 55-57); `none` if one fails. Signs and blanks, which `SimpleAtoi` allows, are left
out. -/
def portOf (p : List Nat) : Option Nat :=
  if p ≠ [] ∧ p.all (fun c => decide (48 ≤ c ∧ c ≤ 57)) then
    if number p 0 < 65536 then some (number p 0) else none
  else none

/-! ### `RobustSender::Send` (util/cloud/utils.cc 177-278) -/

abbrev Err := Nat

/-- What happens in one round of the loop. -/
inductive Att
  /-- `GetHandle` fails (191-193) -/
  | noHandle (e : Err)
  /-- writing or reading the header ends with "connection closed" (200-207, 213-219) -/
  | closed (e : Err)
  /-- another error of these two (208, 225); the socket is closed then, as these are I/O errors -/
  | failed (e : Err)
  /-- A response: its status, as `result()` gives it, 0 for a number that Beast does not know; whether the connection can be used
  again; its header `WWW-Authenticate`; the error of reading the body with whether it is an I/O error, and the error of
  `RefreshToken`, should it come to these. -/
  | resp (st : Nat) (keep : Bool) (auth : Option (List Nat)) (drain : Option (Err × Bool)) (refresh : Option Err)
deriving DecidableEq, Repr

/-- The error codes made by the function itself. -/
inductive Ret
  | ok
  | passed (e : Err)
  | tryAgain
  | denied
  | notPermitted
  | noFile
  | refused
  | badMessage
deriving DecidableEq, Repr

/-- `IsResponseOK` (49-54) -/
def isOk (st : Nat) : Bool := st == 200 || st == 206 || st == 308 || st == 201

/-- `DoesServerPushback` (44-47) -/
def pushback (st : Nat) : Bool := st == 429 || st / 100 == 5

def lower (c : Nat) : Nat := if 65 ≤ c ∧ c ≤ 90 then c + 32 else c

/-- `absl::StrContains` -/
def contains : List Nat → List Nat → Bool
  | [], p => p.isEmpty
  | c :: cs, p => p.isPrefixOf (c :: cs) || contains cs p

/-- "bearer" -/
def bearer : List Nat := [98, 101, 97, 114, 101, 114]

/-- `IsUnauthorized` (24-42) -/
def unauthorized (st : Nat) (auth : Option (List Nat)) : Bool :=
  if st ≠ 401 ∧ st ≠ 403 then false
  else match auth with
    | none => false
    | some a => if st = 401 then true else contains (a.map lower) bearer

/-- What one round does: return, or go on with this `ec`; the flag says that the token was refreshed and the request signed again. -/
inductive Next
  | ret (r : Ret)
  | again (r : Ret) (signed : Bool)
deriving DecidableEq, Repr

/-- One round (190-274). `LOG(DFATAL)` only logs, as in a release build. -/
def round : Att → Next
  | .noHandle e => .ret (.passed e)
  | .closed e => .again (.passed e) false
  | .failed e => .ret (.passed e)
  | .resp st _ auth drain refresh =>
    if isOk st then .ret .ok
    else match drain with
      | some e => .ret (.passed e.1)
      | none =>
        if pushback st then .again .tryAgain false
        else if unauthorized st auth then
          match refresh with
          | some e => .ret (.passed e)
          | none => .again .denied true
        else if st = 403 then .ret .notPermitted
        else if st = 404 then .ret .noFile
        else if st / 100 = 3 then .ret .refused
        else .again .badMessage false

/-- The state of a connection: closed by the client; all of the response was read; that, and the server said it closes it; the
body is still to be read by the user; or part of a response is left in it because reading it was given up. -/
inductive Fate
  | shut
  | clean
  | closing
  | body
  | dirty
deriving DecidableEq, Repr

/-- The state in which a round leaves its connection, `none` if it got none. -/
def fate : Att → Option Fate
  | .noHandle _ => none
  | .closed _ => some .shut
  | .failed _ => some .shut
  | .resp st keep _ drain _ =>
    if isOk st then some .body
    else match drain with
      | some (_, true) => some .shut
      | some (_, false) => some .dirty
      | none => if keep then some .clean else some .closing

/-- What a round does to `reuse_connection` (230-232). -/
def keeps : Att → Bool
  | .resp _ keep _ _ _ => keep
  | _ => true

/-- State of a call: the token's version, the version with which the request is signed, the versions with which it was sent,
`reuse_connection`, the connections that were given back, and the one that `result` holds. -/
structure RS where
  tok : Nat
  sig : Nat
  sent : List Nat
  reuse : Bool
  back : List Fate
  cur : Option Fate
deriving DecidableEq, Repr

/-- What a round does to the state: the new handle replaces the one of the round before, which goes back (195); the flag
`reuse_connection`; the token and the signature (254-255). -/
def RS.after (s : RS) (a : Att) : RS :=
  match fate a with
  | none => s
  | some f =>
    let s1 : RS := { s with
      sent := s.sent ++ [s.sig], reuse := s.reuse && keeps a, back := s.back ++ s.cur.toList, cur := some f }
    match round a with
    | .again _ true => { s1 with tok := s1.tok + 1, sig := s1.tok + 1 }
    | _ => s1

/-- The loop (190-275) with `k` rounds left; `ec` is the error so far. -/
def robustLoop : Nat → List Att → Ret → RS → Ret × RS
  | 0, _, ec, s => (ec, s)
  | k + 1, as, ec, s =>
    match as with
    | [] => (ec, s)
    | a :: as =>
      match round a with
      | .ret r => (r, s.after a)
      | .again r _ => robustLoop k as r (s.after a)

/-- `Send` (177-278): `expiring` is the result of `RefreshIfExpiring` (180-188). The request comes signed with the token's version. -/
def robust (n : Nat) (expiring : Err ⊕ Bool) (as : List Att) (tok : Nat) : Ret × RS :=
  match expiring with
  | .inl e => (.passed e, ⟨tok, tok, [], true, [], none⟩)
  | .inr false => robustLoop n as .ok ⟨tok, tok, [], true, [], none⟩
  | .inr true => robustLoop n as .ok ⟨tok + 1, tok + 1, [], true, [], none⟩

/-- The connections that go back to the pool open: those given back on the way, and that of the result when it is destroyed, which
is shut down first if it must not be used again (149-153); `read` says whether the user read the body. The pool drops what is not
open (https_client_pool.cc 20-27). -/
def RS.pooled (s : RS) (read : Bool) : List Fate :=
  let last : List Fate := match s.cur with
    | none => []
    | some f => if s.reuse then [if f = .body ∧ read then .clean else f] else [.shut]
  (s.back ++ last).filter (· ≠ .shut)

end Verif.Http
