/-!
# Model of `base::flit` and ZigZag (base/flit.h)

`w` is `sizeof(T)`, 4 or 8. Unsigned machine words are natural numbers below `2 ^ (8*w)`, reduced
explicitly where the C++ type wraps. Byte strings are lists.

C++ leaves `T(1) << 8*sizeof(T)` undefined. The decoders execute exactly that shift for some inputs, so
they take a parameter `over`: `none` is the C++ standard's answer (undefined behaviour), `some x`
describes a compilation in which that shift yields `x` (0 for a mask computed with BMI2 `bzhi`,
1 for a plain x86 `shl`, which uses the shift count modulo 64).
-/
namespace Verif.Flit

/-- Outcome of a decoder: decoded value and length, rejected input, a read outside the accessible
bytes, or another undefined behaviour. -/
inductive Res where
  | ok (value len : Nat)
  | invalid
  | oob
  | ub
deriving DecidableEq, Repr

/-- base/endian.h:16-26, little-endian store of the low `n` bytes of `v`. -/
def leBytes : Nat → Nat → List UInt8
  | 0, _ => []
  | n + 1, v => UInt8.ofNat v :: leBytes n (v / 256)

/-- base/endian.h:28-42, little-endian load. -/
def fromLE : List UInt8 → Nat
  | [] => 0
  | b :: bs => b.toNat + 256 * fromLE bs

/-- A load of `n` bytes from the front of the accessible memory `m`; `none` when it does not fit. -/
def load (m : List UInt8) (n : Nat) : Option Nat :=
  if n ≤ m.length then some (fromLE (m.take n)) else none

/-- `absl::countl_zero` of a non-zero `bits`-bit word. -/
def countlZero (bits x : Nat) : Nat := bits - 1 - Nat.log2 x

/-- `absl::countr_zero` of a `bits`-bit word. -/
def countrZero : Nat → Nat → Nat
  | 0, _ => 0
  | bits + 1, x => if x % 2 = 1 then 0 else 1 + countrZero bits (x / 2)

/-- base/flit.h:52-54, `Div7Small`. -/
def div7Small (x : Nat) : Nat := (x * 37) >>> 8

/-- base/flit.h:96-101, `EncodingLength`. -/
def encodingLength (w v : Nat) : Nat :=
  let index := (w * 8 - 1) ^^^ countlZero (w * 8) (v ||| 1)
  1 + div7Small index

/-- base/flit.h:183-209, `EncodeT` (`Encode64` for w=8, `Encode32` for w=4, lines 266-273): the bytes
written, whose number is the returned length. -/
def encode (w v : Nat) : List UInt8 :=
  if v ≥ 2 ^ (7 * w) then
    UInt8.ofNat ((1 <<< w) &&& 0xFF) :: leBytes w v
  else
    let encLen := encodingLength w v
    let v1 := (((v <<< 1) + 1) <<< (encLen - 1)) % 2 ^ (8 * w)
    leBytes encLen v1

/-- base/flit.h:213-232, `EncodeTFast`: the bytes stored (possibly beyond the encoding) and the returned
length. -/
def encodeFast (w v : Nat) : List UInt8 × Nat :=
  if v ≥ 2 ^ (7 * w) then
    (UInt8.ofNat ((1 <<< w) &&& 0xFF) :: leBytes w v, w + 1)
  else
    let encLen := encodingLength w v
    let v1 := (((v <<< 1) + 1) <<< (encLen - 1)) % 2 ^ (8 * w)
    (leBytes w v1, encLen)

/-- The mask `(T(1) << index*8) - 1` of base/flit.h:145,176,259; `none` is undefined behaviour. -/
def mask (over : Option Nat) (w index : Nat) : Option Nat :=
  if index < w then some (2 ^ (index * 8) - 1)
  else if index = w then over.map (fun x => (x + 2 ^ (8 * w) - 1) % 2 ^ (8 * w))
  else none

/-- base/flit.h:234-242, `ParseLengthT`. -/
def parseLength (w : Nat) (first : UInt8) : Nat :=
  if first.toNat &&& 0xFF = (1 <<< w) &&& 0xFF then w + 1
  else 1 + countrZero 8 first.toNat

/-- base/flit.h:246-262, `ParseT`; `m` is the accessible memory at `src`. -/
def parseT (over : Option Nat) (w : Nat) (m : List UInt8) : Res :=
  match load m w with
  | none => .oob
  | some val =>
    if val &&& 0xFF = (1 <<< w) &&& 0xFF then
      match load (m.drop 1) w with
      | none => .oob
      | some v => .ok v (w + 1)
    else
      let index := countrZero (8 * w) val + 1
      match mask over w index with
      | none => .ub
      | some msk => .ok ((val &&& msk) >>> index) index

/-- base/flit.h:117-153, `Parse64Fast`. -/
def parse64Fast (over : Option Nat) (m : List UInt8) : Res :=
  match load m 8 with
  | none => .oob
  | some val =>
    if val &&& 0xff = 0 then
      match load (m.drop 1) 8 with
      | none => .oob
      | some v => .ok v 9
    else
      let index := countrZero 64 val + 1
      match mask over 8 index with
      | none => .ub
      | some msk => .ok ((val &&& msk) >>> index) index

/-- base/flit.h:156-180, `Parse64Safe(begin, end, v)`: `m` is exactly the range `[begin, end)` and `v0`
the previous content of `*v` (whose upper bytes survive the `memcpy`). -/
def parse64Safe (over : Option Nat) (m : List UInt8) (v0 : Nat) : Res :=
  match m with
  | [] => .oob
  | first :: rest =>
    if first.toNat = 0 then
      if m.length < 8 then .invalid
      else
        match load rest 8 with
        | none => .oob
        | some v => if v < 2 ^ 56 then .invalid else .ok v 9
    else
      let index := countrZero 8 first.toNat + 1
      if m.length < index then .invalid
      else
        let v := v0 / 2 ^ (8 * index) * 2 ^ (8 * index) + fromLE (m.take index)
        match mask over 8 index with
        | none => .ub
        | some msk => .ok ((v &&& msk) >>> index) index

/-- base/flit.h:313-320, `ZigZagEncode` of a signed `n`-bit integer given by its bit pattern:
`(UT(t) << 1) ^ (t >> (n-1))` with an arithmetic right shift. -/
def zigZagEncode {n : Nat} (t : BitVec n) : BitVec n := (t <<< 1) ^^^ (t.sshiftRight (n - 1))

/-- base/flit.h:329-332, `ZigZagDecode`: `(t >> 1) ^ -T(t & 1)`. -/
def zigZagDecode {n : Nat} (t : BitVec n) : BitVec n := (t >>> 1) ^^^ (-(t &&& 1#n))

end Verif.Flit
