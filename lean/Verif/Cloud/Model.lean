/-!
Model of the buffered cloud writers: util/cloud/utils.cc `AbstractStorageFile::WriteSome`, `FillBuf`; `Upload` and `Close` of the
S3 writer (util/cloud/aws/s3_storage.cc 322-360), of the GCS writer (util/cloud/gcp/gcs_file.cc 146-239) and of the Azure writer
(util/cloud/azure/storage.cc 349-420). The network is an oracle that says which requests succeed. `multi_buffer` is a byte sequence with a
maximal size; moving out of it leaves it empty with the same maximal size.
-/
namespace Verif.Cloud

abbrev Byte := UInt8

/-- A part as the service receives it: its content and the first position its header names (GCS content range) or its number. -/
structure Part where
  num : Nat
  body : List Byte
  deriving DecidableEq, Repr

/-- Which service: they differ in how a part is labelled and when the label advances. -/
inductive Kind
  | s3 | gcs | azure
  deriving DecidableEq, Repr

/-- The writer: `body_mb_`, its maximal size, the label of the next part (`part_num_`, `uploaded_`, `block_id_`), the parts sent and
acknowledged. -/
structure Writer where
  kind : Kind
  max : Nat
  buf : List Byte
  next : Nat
  sent : List Part
  deriving DecidableEq, Repr

/-- Outcome: a failed CHECK, an error code, or success. -/
inductive Out (α : Type)
  | abort
  | error (w : Writer)
  | ok (a : α) (w : Writer)
  deriving DecidableEq, Repr

/-- The answers of the service: the head says whether the next request succeeds. -/
abbrev Net := List Bool

/-- s3_storage.cc 322-351 `Upload`, gcs_file.cc 196-228, azure/storage.cc 368-383. S3 and GCS advance their label only on success, Azure
takes the next block id before sending. GCS also checks that the size is a multiple of 256 KiB. -/
def upload (w : Writer) (ok : Bool) : Out Unit :=
  if w.buf.length = 0 then .abort
  else if w.kind = .gcs ∧ w.buf.length % 2 ^ 18 ≠ 0 then .abort
  else
    let label := w.next
    let next' := match w.kind with
      | .s3 => w.next + 1
      | .gcs => w.next + w.buf.length
      | .azure => w.next + 1
    if ok then .ok () { w with buf := [], next := next', sent := w.sent ++ [⟨label, w.buf⟩] }
    else .error { w with buf := [], next := if w.kind = .azure then next' else w.next }

/-- util/cloud/utils.cc 112-141 `FillBuf(buffer, length)`. The recursion is the loop; when no room is left the CHECK in `Upload` fails or
`prepare` gets at least one byte, so the data shrinks. -/
def fillBuf (w : Writer) (data : List Byte) (net : Net) : Out Unit × Net :=
  if w.max - w.buf.length ≤ data.length then
    let n := w.max - w.buf.length
    match upload { w with buf := w.buf ++ data.take n } (net.headD true) with
    | .abort => (.abort, net.tail)
    | .error w => (.error w, net.tail)
    | .ok _ w' =>
      if h : 0 < n ∧ n ≤ data.length then fillBuf w' (data.drop n) net.tail
      else (.abort, net.tail)     -- a full buffer: the next round would upload nothing (not reached: see `C42_invariant`)
  else (.ok () { w with buf := w.buf ++ data }, net)
termination_by data.length
decreasing_by simp; omega

/-- util/cloud/utils.cc 103-110 `WriteSome(v, len)`: the loop uses `v->` in every round, that is the first entry. `vs` gives the bytes of the
entries. -/
def writeSomeLoop (v : List Byte) : Nat → Writer → Net → Nat → Out Nat × Net
  | 0, w, net, tot => (.ok tot w, net)
  | k + 1, w, net, tot =>
    match fillBuf w v net with
    | (.abort, net) => (.abort, net)
    | (.error w, net) => (.error w, net)
    | (.ok _ w, net) => writeSomeLoop v k w net (tot + v.length)

/-- `WriteSome` -/
def writeSome (w : Writer) (vs : List (List Byte)) (net : Net) : Out Nat × Net := writeSomeLoop (vs.headD []) vs.length w net 0

/-- What the service assembles from the parts named by `Close`: the S3 part list, the Azure block list (1 .. block_id_ - 1), or the ranges
for GCS. -/
structure Final where
  named : List Nat
  last : Option Part
  size : Nat
  deriving DecidableEq, Repr

/-- `Close` of GCS: gcs_file.cc 146-194: the rest of the buffer goes with the final request, which tells the size. -/
def closeGcs (w : Writer) (net : Net) : Out Final :=
  if net.headD true then
    .ok ⟨w.sent.map Part.num, if w.buf = [] then none else some ⟨w.next, w.buf⟩, w.next + w.buf.length⟩ { w with buf := [] }
  else .error { w with buf := [] }

/-- The final request of S3 (s3_storage.cc 358-391) and Azure (azure/storage.cc 353-365, 400-425). -/
def complete (w : Writer) (net : Net) : Out Final :=
  if net.headD true then .ok ⟨if w.kind = .azure then List.range' 1 (w.next - 1) else w.sent.map Part.num, none, 0⟩ w
  else .error w

/-- `Close` of S3 (s3_storage.cc 353-392) and Azure (azure/storage.cc 349-366). -/
def closeParts (w : Writer) (net : Net) : Out Final :=
  if w.buf.length > 0 then
    match upload w (net.headD true) with
    | .abort => .abort
    | .error w => .error w
    | .ok _ w => complete w net.tail
  else complete w net

/-- `Close` -/
def close (w : Writer) (net : Net) : Out Final := if w.kind = .gcs then closeGcs w net else closeParts w net

end Verif.Cloud
