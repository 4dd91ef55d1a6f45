import Verif.FiberFile.Model
/-! Words used in the statements of C70. -/
namespace Verif.FiberFile
open Verif.Common

/-- A read of `n` bytes at `off` of `file`, with a prefetch buffer of `B` bytes, may return `bs`: it is what the file has there,
and with a buffer of one byte it may be less, but nothing only at the end of the file. -/
structure Right (file : List Byte) (B off n : Nat) (bs : List Byte) : Prop where
  pre : bs <+: (file.drop off).take n
  eof : bs = [] → file.length ≤ off
  full : 2 ≤ B → bs = (file.drop off).take n

/-- Read sequentially from `off` on: the sizes of the reads, less one, and whether a pending prefetch is done before each. The
bytes that each read returned, `none` if a read does not return bytes. -/
def seqRead (s : F) (off : Nat) : List (Nat × Bool) → Option (List (List Byte))
  | [] => some []
  | (n, b) :: ns =>
    match (if b then s.run .ok else s).read off (n + 1) .ok .ok with
    | .ret (.ok bs) s' => (seqRead s' (off + bs.length) ns).map (bs :: ·)
    | _ => none

/-- How many bytes are asked for. -/
def total (ns : List (Nat × Bool)) : Nat := (ns.map fun p => p.1 + 1).sum

/-- A call returned bytes or an error: it did not wait for ever, fail a `CHECK` or use memory outside the buffer. -/
def Ans.Returned {α : Type} : Ans α → Prop
  | .ret _ _ => True
  | _ => False

end Verif.FiberFile
