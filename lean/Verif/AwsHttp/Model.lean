/-!
# Model of the stream adapter (util/asio_stream_adapter.h) and of the HTTP client of the AWS SDK (util/aws/http_client.cc)

The answers of the socket, of DNS and of the TLS handshake are inputs. `writeAll` is the loop of `boost::asio::write` (call `write_some` with
what is left until nothing is left or the error is set), which is not in this repository. Serialization and parsing of HTTP
messages (Beast) are inputs too: the bytes of the header and the parsed response. Left out: logging, the rate limiters (not used by the
code), the keep-alive options of the socket, the checks that there is a proactor and that the query begins with '?'.
-/
namespace Verif.AwsHttp

/-- An error: a category and a number. -/
structure Err where
  cat : Nat
  val : Nat
deriving DecidableEq

/-- `system_category` -/
def sysCat : Nat := 0

/-- `boost::asio::error::eof` -/
def eof : Err := ⟨1, 2⟩

/-- `read_some` (41-58) when `Recv` answers `r`; `ec` is the variable of the caller. -/
def readSome (r : Except Err Nat) (ec : Option Err) : Nat × Option Err :=
  match r with
  | .ok n => (n, if n = 0 then some eof else ec)
  | .error e => (0, some ⟨sysCat, e.val⟩)

/-- `write_some` (60-75) when `WriteSome` answers `r`. -/
def writeSome (r : Except Err Nat) (ec : Option Err) : Nat × Option Err :=
  match r with
  | .ok n => (n, ec)
  | .error e => (0, some ⟨sysCat, e.val⟩)

/-- `boost::asio::write` through the adapter; the socket answers in the order of the list. What the socket took, and the error. An exhausted list is a
socket that does not answer: `none`. -/
def writeAll : List (Except Err Nat) → List UInt8 → Option Err → List UInt8 → Option (List UInt8 × Option Err)
  | _, [], ec, acc => some (acc, ec)
  | [], _ :: _, _, _ => none
  | r :: rs, d :: ds, ec, acc =>
    match writeSome r ec with
    | (n, some e) => some (acc ++ (d :: ds).take n, some e)
    | (n, none) => writeAll rs ((d :: ds).drop n) none (acc ++ (d :: ds).take n)

/-- The content of a request: none, a buffer that can be sent as it is, or another stream with its declared length. -/
inductive Body where
  | none
  | buffer (b : List UInt8)
  | stream (b : List UInt8) (len : Nat)

structure Msg where
  code : Nat
  headers : List (String × String)
  body : List UInt8
deriving DecidableEq

/-- What the world answers. -/
structure Env where
  dns : Bool
  connect : Bool
  https : Bool
  tls : Bool
  /-- the header of the request, as serialized -/
  head : List UInt8
  body : Body
  /-- answers of the socket to `h2::write` -/
  wr : List (Except Err Nat)
  /-- how many bytes of the buffer `conn->Write` wrote, and whether it succeeded -/
  wbody : Nat × Bool
  /-- the response, if it could be read -/
  resp : Option Msg

inductive Ev where
  | opened
  | sent (b : List UInt8)
  | close
deriving DecidableEq

/-- The response given to the SDK: a network error or a message. -/
inductive Resp where
  | network
  | msg (m : Msg)
deriving DecidableEq

/-- What is copied into the body of the Boost request (104-111): `len` characters '0', overwritten by what the stream has. -/
def copied (b : List UInt8) (len : Nat) : List UInt8 := b.take len ++ List.replicate (len - b.length) 48

/-- The bytes that `h2::write` sends. -/
def first (e : Env) : List UInt8 := match e.body with
  | .stream b len => e.head ++ copied b len
  | _ => e.head

/-- The content length does not fit an `unsigned` (106). -/
def tooLong : Body → Bool
  | .stream _ len => decide (len ≥ 2 ^ 32)
  | _ => false

/-- From the body on (163-208). -/
def rest (e : Env) (log : List Ev) : Resp × List Ev :=
  let r : Option Resp × List Ev := match e.body with
    | .buffer b => if e.wbody.2 then (none, log ++ [.sent b]) else (some .network, log ++ [.sent (b.take e.wbody.1), .close])
    | _ => (none, log)
  match r with
  | (some x, log) => (x, log)
  | (none, log) => match e.resp with
    | none => (.network, log ++ [.close])
    | some m => (.msg m, log ++ [.close])

/-- `MakeRequest` (63-208) with `Connect` (228-261). `none`: the socket does not answer, or the CHECK of the content length (106) fails. -/
def make (e : Env) : Option (Resp × List Ev) :=
  if tooLong e.body then none
  else if e.dns = false then some (.network, [])
  else if e.connect = false then some (.network, [.opened, .close])
  else if e.https = true ∧ e.tls = false then some (.network, [.opened, .close])
  else match writeAll e.wr (first e) none [] with
    | none => none
    | some (b, some _) => some (.network, [.opened, .sent b, .close])
    | some (b, none) => some (rest e [.opened, .sent b])

end Verif.AwsHttp
