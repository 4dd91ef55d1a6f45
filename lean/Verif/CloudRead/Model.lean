/-!
Model of the streaming readers of cloud objects: `GcsReadFile` (util/cloud/gcp/gcs_file.cc 97-130, 241-298), the Azure `ReadFile` (util/cloud/azure/storage.cc 199-234, 264-335) and the S3
`ReadFile` (util/cloud/aws/s3_storage.cc 195-280). They request the whole object once and pull the body of the answer through the HTTP parser. The parser and the connection are oracles.
-/
namespace Verif.CloudRead

abbrev Byte := UInt8

/-- Which service. -/
inductive Kind
  | gcs | azure | s3
  deriving DecidableEq, Repr

/-- The answer to the request: it failed after all attempts, its header has no content length that can be parsed, or one with the length `n`; the body follows. -/
inductive Resp
  | fail
  | noLen (body : List Byte)
  | len (n : Nat) (body : List Byte)
  deriving DecidableEq, Repr

/-- The code of `http::Client::Recv`: the message is complete, the buffer is full (`need_buffer`), the connection ended early (`partial_message`), any other error. -/
inductive Code
  | done | needBuffer | partialMsg | other
  deriving DecidableEq, Repr

/-- A call of `Recv`: given how many bytes of the body are left and the size of the buffer, how many bytes it stores and its code. -/
abbrev Recv := Nat → Nat → Nat × Code

/-- A reader: whether `client_handle_` is set, `size_`, `offs_`, and the bytes of the body not yet pulled. -/
structure File where
  kind : Kind
  up : Bool
  size : Nat
  offs : Nat
  rest : List Byte
  deriving DecidableEq, Repr

/-- Outcome: waiting for a connection that does not answer, a failed CHECK, an error code, success. -/
inductive Out (α : Type)
  | pending
  | abort
  | error (f : File)
  | ok (a : α) (f : File)
  deriving DecidableEq, Repr

/-- A reader of GCS or Azure as opened (gcs_file.cc 346-350, azure/storage.cc 509-514): no request is sent. -/
def fresh (k : Kind) : File := ⟨k, false, 0, 0, []⟩

/-- The request: gcs_file.cc 254-271, azure/storage.cc 267-288 and s3_storage.cc 230-250 `InitRead`. GCS sets `client_handle_` before it looks at the header, the others after. A header that cannot be parsed leaves
0 in `size_`. -/
def initRead (f : File) : Resp → Out Unit
  | .fail => .error f
  | .noLen body => if f.kind = .gcs then .error { f with up := true, size := 0, rest := body } else .error { f with size := 0 }
  | .len n body => .ok () { f with up := true, size := n, rest := body }

/-- s3_storage.cc 508-518 `OpenReadFile`: the request is sent on opening; an error leaves no file. -/
def openS3 (r : Resp) : Option File := match initRead (fresh .s3) r with
  | .ok _ f => some f
  | _ => none

/-- The loop over the entries: gcs_file.cc 273-298, azure/storage.cc 301-334, s3_storage.cc 254-278. `ws` holds the lengths of the entries. -/
def pull (f : File) (ws : List Nat) (net : List Recv) (got : List Byte) : Out (List Byte) × List Recv :=
  match ws with
  | [] => (.ok got f, net)
  | w :: ws =>
    match net with
    | [] => (.pending, [])
    | r :: net =>
      let a := r f.rest.length w
      let got := got ++ f.rest.take a.1
      let f := { f with offs := f.offs + a.1, rest := f.rest.drop a.1 }
      match a.2 with
      | .partialMsg => (.error f, net)
      | .other => (.error f, net)
      | _ =>
        if a.1 < w ∧ f.offs ≠ f.size then
          match f.kind with
          | .gcs => (.abort, net)
          | .azure => (.error f, net)
          | .s3 => pull f ws net got
        else pull f ws net got

/-- `Read(offset, v, len)`: gcs_file.cc 250-298, azure/storage.cc 290-334, s3_storage.cc 252-280. The offset is not used (for S3 a debug check compares it). The S3 reader has sent its request when it was opened. -/
def read (f : File) (_offset : Nat) (ws : List Nat) (init : Resp) (net : List Recv) : Out (List Byte) × List Recv :=
  if f.up then pull f ws net []
  else match initRead f init with
    | .ok _ f => pull f ws net []
    | .error f => (.error f, net)
    | .pending => (.pending, net)
    | .abort => (.abort, net)

end Verif.CloudRead
