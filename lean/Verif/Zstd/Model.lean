/-!
Model of the decompressing source: io/zstd_sinksource.cc, io/zstd_sinksource.h.

The decompressor of the library is left abstract: a state and a step that is given the input at hand and the room for output. What the library promises of it is `Spec.Contract`.
The results of the calls of the upstream source's `Read` are given as a list: `some bytes`, `none` for an error; no bytes, or the end of the list, is the end of the stream.
-/
namespace Verif.Zstd

abbrev Str := List UInt8

/-- `ZSTD_decompressStream`: from the state, the bytes at hand and the room for output to the next state, the number of bytes taken and the bytes produced; or an error. -/
abbrev Decoder (S : Type) := S → Str → Nat → Option (S × Nat × Str)

/-- What a call returns: bytes, the error of the upstream source, the error for bad data, or a failed CHECK that ends the process. -/
inductive Res where
  | ok (out : Str)
  | upstream
  | illegal
  | abort
deriving DecidableEq, Repr

/-- zstd_sinksource.h 23-26: the decoder, the bytes of `buf_` from `offs_` to `buf_len_`, and what the upstream source will give. -/
structure St (S : Type) where
  d : S
  buf : Str
  up : List (Option Str)
deriving Repr

/-- zstd_sinksource.cc 49-59: one round with the bytes `i` at hand, `out` produced so far: the result if the loop ends, or the next state of the decoder and the output so far. -/
def round {S : Type} (dec : Decoder S) (cap : Nat) (d : S) (i out : Str) (up : List (Option Str)) : (Res × St S) ⊕ (S × Str) :=
  match dec d i (cap - out.length) with
  | none => .inl (.illegal, ⟨d, i, up⟩)
  | some (d', c, p) =>
    if c < i.length then
      if (out ++ p).length = cap then .inl (.ok (out ++ p), ⟨d', i.drop c, up⟩) else .inl (.abort, ⟨d', i.drop c, up⟩)
    else if (out ++ p).length < cap then .inr (d', out ++ p)
    else .inl (.ok (out ++ p), ⟨d', [], up⟩)

/-- zstd_sinksource.cc 38-60: the loop from a point where `buf_` is used up. -/
def fill {S : Type} (dec : Decoder S) (cap : Nat) : List (Option Str) → S → Str → Res × St S
  | [], d, out => (.ok out, ⟨d, [], []⟩)
  | none :: up, d, _ => (.upstream, ⟨d, [], up⟩)
  | some i :: up, d, out =>
    if i = [] then (.ok out, ⟨d, [], up⟩)
    else
      match round dec cap d i out up with
      | .inl r => r
      | .inr (d', out') => fill dec cap up d' out'

/-- zstd_sinksource.cc 32-63 `ReadSome`, with the lengths of the caller's buffers: only the first one is used. The caller gives at least one. -/
def readSome {S : Type} (dec : Decoder S) (s : St S) (v : List Nat) : Res × St S :=
  match v with
  | [] => (.abort, s)
  | cap :: _ =>
    if s.buf = [] then fill dec cap s.up s.d []
    else
      match round dec cap s.d s.buf [] s.up with
      | .inl r => r
      | .inr (d', out) => fill dec cap s.up d' out

/-- Reads one after the other, with these buffers; stops at the first that does not return bytes. -/
def reads {S : Type} (dec : Decoder S) (s : St S) : List (List Nat) → Option (List Str × St S)
  | [] => some ([], s)
  | v :: vs =>
    match readSome dec s v with
    | (.ok out, s') => (reads dec s' vs).map fun r => (out :: r.1, r.2)
    | _ => none

end Verif.Zstd
