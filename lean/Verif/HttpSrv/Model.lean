import Verif.Text.Model
/-!
# The HTTP server

`/repo/util/http/http_handler.{h,cc}`: how the bytes of a connection become requests, what is done with a request, and which files
`/filez` gives away.

Simplifications. Boost.Beast's parser is a function of the bytes so far. The contents of the pages are left out, only which page is
answered is kept. Base64 decoding is a function given from outside. Files are named by the list of the components of a path.
-/
namespace Verif.HttpSrv
open Verif.Text

/-! ### Bytes to requests -/

/-- What a parser says about some bytes. -/
inductive PRes (Q : Type)
  /-- a request that ends after `used` bytes -/
  | done (q : Q) (used : Nat)
  | more
  | bad (e : Nat)
deriving DecidableEq, Repr

abbrev Parser (Q : Type) := List Nat → PRes Q

/-- Handles the requests that are complete in the bytes: `ParseFromBuffer`'s loop (http_handler.cc 328-346), and `HandleRequests`'
loop (375-378) as long as the buffer has complete requests. The rest of the bytes, and the error that ends it. `n` bounds the rounds. -/
def drain {Q : Type} (p : Parser Q) : Nat → List Nat → List Q × List Nat × Option Nat
  | 0, bs => ([], bs, none)
  | n + 1, bs =>
    match p bs with
    | .done q k => let r := drain p n (bs.drop k); (q :: r.1, r.2)
    | .more => ([], bs, none)
    | .bad e => ([], bs, some e)

/-- `errc::value_too_large` -/
def EOVERFLOW : Nat := 75

/-- A connection: `req_buffer_` and the requests handled. -/
structure Conn (Q : Type) where
  buf : List Nat
  handled : List Q
deriving Repr

/-- The size of `req_buffer_` (315). -/
def maxBuf : Nat := 4096

/-- `ParseFromBuffer` (318-361): the error code. `none` is the exception of `prepare`. -/
def parseFromBuffer {Q : Type} (p : Parser Q) (c : Conn Q) (bs : List Nat) : Option (Conn Q × Option Nat) :=
  let r := drain p bs.length bs
  match r.2.2 with
  | some e => some (⟨c.buf, c.handled ++ r.1⟩, some e)
  | none =>
    if r.2.1.length > maxBuf then some (⟨c.buf, c.handled ++ r.1⟩, some EOVERFLOW)
    else if c.buf.length + r.2.1.length > maxBuf then none
    else some (⟨c.buf ++ r.2.1, c.handled ++ r.1⟩, none)

/-- `HandleRequests` (363-383), with the pieces in which the socket gives the bytes: the requests handled, and the parser's error. The
limit of the buffer is left out here. -/
def serve {Q : Type} (p : Parser Q) (buf : List Nat) : List (List Nat) → List Q × Option Nat
  | [] => let r := drain p buf.length buf; (r.1, r.2.2)
  | c :: cs =>
    let r := drain p buf.length buf
    match r.2.2 with
    | some e => (r.1, some e)
    | none => let t := serve p (r.2.1 ++ c) cs; (r.1 ++ t.1, t.2)

/-! ### One request -/

structure Req where
  target : Str
  /-- the `Authorization` header; empty if there is none -/
  auth : Str
deriving DecidableEq, Repr

/-- What is answered. -/
inductive Page
  | denied
  | favicon
  | status
  | root
  | flagz
  | filez
  | profilez
  | metrics
  /-- the callback with this number, with its arguments -/
  | callback (id : Nat) (args : List (Str × Str))
  /-- no such page (answered with the status 401) -/
  | unknown
deriving DecidableEq, Repr

/-- `HttpListenerBase` (http_handler.h 66-138). -/
structure Server where
  /-- `cb_map_` -/
  cbs : List (Str × Nat)
  metrics : Bool
  /-- `root_response_` is not empty -/
  hasRoot : Bool
  auth : Option (Str → Str → Str → Bool)

/-- `RegisterCb` (304-312): whether it was registered. -/
def Server.register (s : Server) (path : Str) (id : Nat) : Server × Bool :=
  match s.cbs.find? (fun x => x.1 == path) with
  | some _ => (s, false)
  | none => ({ s with cbs := s.cbs ++ [(path, id)] }, true)

/-- User name and password (385-407). -/
def credentials (unb64 : Str → Str) (auth : Str) : Str × Str :=
  if (lit "Basic ").isPrefixOf auth then
    let d := unb64 (auth.drop 6)
    match find 58 d with
    | some i => (d.take i, d.drop (i + 1))
    | none => ([], [])
  else ([], [])

/-- `HandleRoot` (252-302). -/
def handleRoot (s : Server) (target : Str) : Option Page :=
  if target = lit "/favicon.ico" then some .favicon
  else
    let path := (parseQuery target).1
    if path = lit "/" then some (if s.hasRoot then .root else .status)
    else if path = lit "/flagz" then some .flagz
    else if path = lit "/filez" then some .filez
    else if path = lit "/profilez" then some .profilez
    else if s.metrics && path == lit "/metrics" then some .metrics
    else none

/-- `CheckRequestAuthorization` (385-420): without a functor everything is allowed. -/
def Server.allows (s : Server) (path user pass : Str) : Bool :=
  match s.auth with
  | none => true
  | some f => f path user pass

/-- `HandleSingleRequest` (422-449) with `CheckRequestAuthorization` (385-420). -/
def handle (unb64 : Str → Str) (s : Server) (r : Req) : Page :=
  let path := (parseQuery r.target).1
  let c := credentials unb64 r.auth
  if s.allows path c.1 c.2 then
    match handleRoot s r.target with
    | some pg => pg
    | none =>
      match s.cbs.find? (fun x => x.1 == path) with
      | some x => .callback x.2 (queryArgs r.target)
      | none => .unknown
  else .denied

/-! ### `/filez` -/

abbrev Path := List String

/-- `lexically_relative` for two absolute paths without dots: what is left of `p` after the common beginning, with `..` for the rest of
the base; a dot if nothing is left. -/
def lexRel : Path → Path → Path
  | b :: bs, p :: ps => if b = p then lexRel bs ps else (b :: bs).map (fun _ => "..") ++ p :: ps
  | bs, [] => if bs = [] then ["."] else bs.map (fun _ => "..")
  | [], ps => ps

/-- What a file name leads to: a canonical absolute path, a relative one that does not exist, or an exception of the library. -/
inductive Canon
  | abs (p : Path)
  | rel
  | throws
deriving DecidableEq, Repr

inductive FilezRes
  | unauthorized
  /-- the file that is opened and sent -/
  | sent (p : Path)
  | notFound
  /-- an exception that nothing catches -/
  | crash
deriving DecidableEq, Repr

/-- `FilezHandler` (131-166). `canon` is what `weakly_canonical` finds, `opened` what the same name leads to when it is opened; the
folder is `folder`. -/
def filez (folder : Path) (canon : Canon) (opened : Option Path) : FilezRes :=
  match canon with
  | .throws => .crash
  | .rel => .unauthorized
  | .abs p =>
    if folder ++ lexRel folder p ≠ p then .unauthorized
    else match opened with
      | some q => .sent q
      | none => .notFound

end Verif.HttpSrv
