/-!
Model of the files over the AWS SDK: util/aws/s3_write_file.{h,cc} and util/aws/s3_read_file.{h,cc}. The SDK's client is a service that answers one request at a time.
-/
namespace Verif.S3File

abbrev Byte := UInt8

/-! ## Writing -/

/-- What becomes of an upload request: it is acknowledged, it never arrives, or it is stored and the answer is an error. The kinds of errors that s3_write_file.cc tells apart
(163-185) all end in `io_error` and differ only in the log. -/
inductive Ans
  | ok | lost | stored
  deriving DecidableEq, Repr

/-- `S3WriteFile` (s3_write_file.h 27-63) and the service's side of its multipart upload. -/
structure WFile where
  /-- `buf_.size()`, the part size -/
  cap : Nat
  /-- the first `offset_` bytes of `buf_` -/
  buf : List Byte
  /-- `parts_.size()`; the entity tags and checksums in `parts_` are left out -/
  parts : Nat
  /-- the service: the body it holds for each part number, the last one stored counts -/
  srv : Nat → Option (List Byte)

/-- s3_write_file.cc 130-135: the constructor. -/
def openW (partSize : Nat) : WFile := ⟨partSize, [], 0, fun _ => none⟩

/-- The service stores a body under a part number. -/
def put (srv : Nat → Option (List Byte)) (k : Nat) (b : List Byte) : Nat → Option (List Byte) := fun i => if i = k then some b else srv i

/-- Outcome of a call: it never returns, it returns an error, or it returns a value. -/
inductive Out (α : Type)
  | spin
  | error (f : WFile)
  | ok (a : α) (f : WFile)

/-- s3_write_file.cc 137-187 `Flush`. Result: the state, and whether it succeeded. The remaining answers are returned too. -/
def flush (f : WFile) (net : List Ans) : Bool × WFile × List Ans :=
  if f.buf.length = 0 then (true, f, net)
  else match net.headD .ok with
    | .ok => (true, { f with buf := [], parts := f.parts + 1, srv := put f.srv (f.parts + 1) f.buf }, net.tail)
    | .lost => (false, f, net.tail)
    | .stored => (false, { f with srv := put f.srv (f.parts + 1) f.buf }, net.tail)

/-- s3_write_file.cc 27-44: the inner loop over one entry with the bytes `data` not yet written. With a part size of 0 the loop copies nothing and `Flush` has nothing to do, for ever. -/
def fill (f : WFile) (data : List Byte) (net : List Ans) : Out Unit × List Ans :=
  if data.length = 0 then (.ok () f, net)
  else
    let n := min data.length (f.cap - f.buf.length)
    let f1 := { f with buf := f.buf ++ data.take n }
    if f1.buf.length = f.cap then
      let r := flush f1 net
      if r.1 = false then (.error r.2.1, r.2.2)
      else if h : f.cap = 0 then (.spin, r.2.2)
      else if h2 : r.2.1.cap = f.cap ∧ r.2.1.buf = [] ∧ f.buf.length ≤ f.cap then fill r.2.1 (data.drop n) r.2.2
      else (.spin, r.2.2)       -- not reached: `flush` empties the buffer and leaves its size (see `fill_flush`)
    else if 0 < n then (.ok () f1, net)     -- the entry is exhausted: n = data.length (see `fill_rest`)
    else (.spin, net)           -- not reached: the buffer has room, so n > 0
termination_by 2 * data.length + (if f.buf.length = f.cap then 1 else 0)
decreasing_by
  rename_i hd hf _
  change 2 * (data.drop n).length + (if r.2.1.buf.length = r.2.1.cap then 1 else 0) < _
  rw [h2.2.1, h2.1, if_neg (fun e => h (by simpa using e.symm)), List.length_drop]
  split <;> omega

/-- s3_write_file.cc 18-48 `WriteSome(v, len)`; `vs` holds the bytes of the entries. -/
def writeSome (f : WFile) (vs : List (List Byte)) (net : List Ans) (total : Nat) : Out Nat × List Ans :=
  match vs with
  | [] => (.ok total f, net)
  | v :: vs =>
    match fill f v net with
    | (.spin, net) => (.spin, net)
    | (.error f, net) => (.error f, net)
    | (.ok _ f, net) => writeSome f vs net (total + v.length)

/-- What the service puts together from the parts 1..k (s3_write_file.cc 58-66), if it has them all. -/
def assemble (srv : Nat → Option (List Byte)) : Nat → Option (List Byte)
  | 0 => some []
  | k + 1 => match assemble srv k, srv (k + 1) with
    | some a, some b => some (a ++ b)
    | _, _ => none

/-- s3_write_file.cc 52-100 `Close`: `Flush`, then the completion with the part numbers 1..parts_.size(). On success the result is the number of parts named; the object is what `assemble` gives for
it. -/
def closeW (f : WFile) (net : List Ans) : Out Nat × List Ans :=
  let r := flush f net
  if r.1 = false then (.error r.2.1, r.2.2)
  else match r.2.2.headD .ok with
    | .ok => (.ok r.2.1.parts r.2.1, r.2.2.tail)
    | _ => (.error r.2.1, r.2.2.tail)

/-! ## Reading -/

/-- The `Content-Range` header of an answer: absent, with a total after the slash, or not parsable (s3_read_file.cc 147-166). The parsing itself is left out. -/
inductive CRange
  | absent | total (n : Nat) | bad
  deriving DecidableEq, Repr

/-- An answer to `GetObject`: any of the errors (s3_read_file.cc 112-141), or a body with its content length. -/
inductive Get
  | fail
  | body (b : List Byte) (r : CRange)
  deriving DecidableEq, Repr

/-- The service: how it answers the coming requests, each given the first and last position of the range asked for. -/
abbrev Net := List (Nat → Nat → Get)

/-- `S3ReadFile` (s3_read_file.h 24-58): the capacity of `buf_`, its input, `file_read_` and `file_size_`. -/
structure RFile where
  cap : Nat
  buf : List Byte
  fileRead : Nat
  fileSize : Nat
  deriving DecidableEq, Repr

/-- s3_read_file.cc 17-20: the constructor (the buffer rounds the chunk size up to a power of two, see the model of IoBuf). -/
def openR (cap : Nat) : RFile := ⟨cap, [], 0, 0⟩

/-- s3_read_file.cc 43-45 `Size` -/
def RFile.size (f : RFile) : Nat := f.fileSize

/-- Outcome of a read: still waiting for an answer that does not come, a failed CHECK, a write past the end of the buffer, an error, or bytes. -/
inductive ROut (α : Type)
  | pending
  | abort
  | overflow
  | error (f : RFile)
  | ok (a : α) (f : RFile)
  deriving DecidableEq, Repr

/-- s3_read_file.cc 87-111: what `DownloadChunk` does with a successful answer. -/
def chunk (f : RFile) (b : List Byte) (r : CRange) : ROut Unit :=
  if f.buf.length ≠ 0 then .abort
  else if f.cap < b.length then .overflow
  else
    let f := { f with buf := b }
    if f.fileSize = 0 then
      match r with
      | .absent => .ok () { f with fileSize := b.length }
      | .total n => .ok () { f with fileSize := n }
      | .bad => .error f
    else .ok () f

/-- s3_read_file.cc 51-78 `Read(iovec)` with a buffer of `want` bytes of which `got` are filled. The second test at the head of `DownloadChunk` (82-84) makes the loop return. The range is that of
`NextByteRange` (143-145). -/
def readOne (f : RFile) (want : Nat) (got : List Byte) (net : Net) : ROut (List Byte) × Net :=
  if 0 < f.fileSize ∧ f.fileRead = f.fileSize then (.ok got f, net)
  else
    let n := want - got.length
    if n = 0 then (.ok got f, net)
    else
      let n := if f.buf.length < n then f.buf.length else n
      let got := got ++ f.buf.take n
      let f := { f with buf := f.buf.drop n, fileRead := f.fileRead + n }
      if want ≤ got.length then (.ok got f, net)
      else if 0 < f.fileSize ∧ f.fileRead = f.fileSize then (.ok got f, net)
      else match net with
        | [] => (.pending, [])
        | g :: net =>
          match g f.fileRead (f.fileRead + f.cap - 1) with
          | .fail => (.error f, net)
          | .body b r =>
            match chunk f b r with
            | .pending => (.pending, net)
            | .abort => (.abort, net)
            | .overflow => (.overflow, net)
            | .error f => (.error f, net)
            | .ok _ f => readOne f want got net

/-- s3_read_file.cc 22-37 `Read(offset, v, len)`: the offset is not used. `wants` holds the lengths of the entries; the result is all bytes stored in them, in order. -/
def read (f : RFile) (_offset : Nat) (wants : List Nat) (net : Net) (got : List Byte) : ROut (List Byte) × Net :=
  match wants with
  | [] => (.ok got f, net)
  | w :: ws =>
    match readOne f w [] net with
    | (.ok g f, net) => read f _offset ws net (got ++ g)
    | (.pending, net) => (.pending, net)
    | (.abort, net) => (.abort, net)
    | (.overflow, net) => (.overflow, net)
    | (.error f, net) => (.error f, net)

end Verif.S3File
