/-!
# Model of the hash functions (base/hash.cc, base/hash.h)

32-bit arithmetic is `BitVec 32`. A read outside the `len` bytes the caller passed has no result (`none`). Simplified: the
machine is little-endian, as on the platforms of the project; `XXH64` and the streaming interface of xxhash, which are another
library, are parameters.
-/
namespace Verif.Hash

abbrev Byte := BitVec 8
abbrev W := BitVec 32
abbrev Bytes := List Byte

/-- `rotl32` (base/hash.cc 29-31). -/
def rotl32 (x : W) (r : Nat) : W := (x <<< r) ||| (x >>> (32 - r))

/-- `fmix` (base/hash.cc 19-27). -/
def fmix (h0 : W) : W :=
  let h1 := (h0 ^^^ (h0 >>> 16)) * 0x85ebca6b#32
  let h2 := (h1 ^^^ (h1 >>> 13)) * 0xc2b2ae35#32
  h2 ^^^ (h2 >>> 16)

/-- The byte at `data + off`; `none` outside of the `len` bytes. -/
def peek (d : Bytes) (off : Int) : Option Byte := if off < 0 then none else d[off.toNat]?

/-- `memcpy(&k1, blocks + i, 4)` (base/hash.cc 54): the little-endian word at `data + off`. -/
def load (d : Bytes) (off : Int) : Option W := do
  let b0 ← peek d off
  let b1 ← peek d (off + 1)
  let b2 ← peek d (off + 2)
  let b3 ← peek d (off + 3)
  return b0.setWidth 32 ||| (b1.setWidth 32 <<< 8) ||| (b2.setWidth 32 <<< 16) ||| (b3.setWidth 32 <<< 24)

/-- `k1 *= c1; k1 = rotl32(k1, 15); k1 *= c2` (base/hash.cc 56-58 and again 80-82). -/
def scramble (k : W) : W := rotl32 (k * 0xcc9e2d51#32) 15 * 0x1b873593#32

/-- `h1 ^= k1; h1 = rotl32(h1, 13); h1 = h1 * 5 + 0xe6546b64` (base/hash.cc 60-62). -/
def mix (h k : W) : W := rotl32 (h ^^^ k) 13 * 5#32 + 0xe6546b64#32

/-- One round of the loop (base/hash.cc 51-63), number `j` from zero; `i` of the code is `j - nblocks`, and `blocks` is
`data + nblocks * 4`. -/
def round (d : Bytes) (nblocks : Nat) (h : W) (j : Nat) : Option W := do
  let i : Int := (j : Int) - nblocks
  let k ← load d ((nblocks * 4 : Nat) + 4 * i)
  return mix h (scramble k)

/-- The switch over the tail (base/hash.cc 72-84); `t` is the offset of `tail`. -/
def tail (d : Bytes) (t : Nat) (h : W) : Nat → Option W
  | 3 => do
    let b2 ← peek d (t + 2 : Nat)
    let b1 ← peek d (t + 1 : Nat)
    let b0 ← peek d (t : Nat)
    return h ^^^ scramble ((b2.setWidth 32 <<< 16) ^^^ (b1.setWidth 32 <<< 8) ^^^ b0.setWidth 32)
  | 2 => do
    let b1 ← peek d (t + 1 : Nat)
    let b0 ← peek d (t : Nat)
    return h ^^^ scramble ((b1.setWidth 32 <<< 8) ^^^ b0.setWidth 32)
  | 1 => do
    let b0 ← peek d (t : Nat)
    return h ^^^ scramble (b0.setWidth 32)
  | _ => some h

/-- `MurmurHash3_x86_32(data, len, seed)` (base/hash.cc 37-93). -/
def murmur (d : Bytes) (len seed : W) : Option W := do
  let nblocks := len.toNat / 4
  let h ← (List.range nblocks).foldlM (round d nblocks) seed
  let h ← tail d (nblocks * 4) h (len.toNat % 4)
  return fmix (h ^^^ len)

/-- The bytes of a `uint64_t` in memory. -/
def bytes64 (v : BitVec 64) : Bytes := (List.range 8).map fun i => (v >>> (8 * i)).setWidth 8

/-- `Murmur32(uint64_t, seed)` (base/hash.h 21-23). -/
def murmurInt (v : BitVec 64) (seed : W) : Option W := murmur (bytes64 v) 8#32 seed

/-- `Murmur32(const std::string&, seed)` (base/hash.h 25-29); the size becomes a `uint32_t`. -/
def murmurStr (s : Bytes) (seed : W) : Option W :=
  if s = [] then some seed else murmur s (BitVec.ofNat 32 s.length) seed

/-- `Fingerprint(str, len)` (base/hash.cc 95-100), `xxh` standing for `XXH64`. -/
def fingerprint (xxh : Bytes → BitVec 64 → BitVec 64) (s : Bytes) (len : W) : BitVec 64 :=
  let res := xxh (s.take len.toNat) 24061983#64
  if 1#64 < res then res else 2#64

/-- `Fingerprint(const std::string&)` (base/hash.h 33-35). -/
def fingerprintStr (xxh : Bytes → BitVec 64 → BitVec 64) (s : Bytes) : BitVec 64 := fingerprint xxh s (BitVec.ofNat 32 s.length)

/-- `Fingerprint32` (base/hash.h 37-40). -/
def fingerprint32 (xxh : Bytes → BitVec 64 → BitVec 64) (s : Bytes) : W :=
  let res := fingerprintStr xxh s
  (res >>> 32).setWidth 32 ^^^ res.setWidth 32

/-! ## Hashing several values (base/hash.h 42-141) -/

/-- A value that `HashAppend` accepts: an integer or an enum of some number of bytes, a string or string view, or an
optional. -/
inductive Val where
  | int (width : Nat) (v : Nat)
  | str (s : Bytes)
  | none
  | some (v : Val)
deriving DecidableEq

/-- The bytes of an integer of `width` bytes in memory. -/
def intBytes : Nat → Nat → Bytes
  | 0, _ => []
  | w + 1, v => BitVec.ofNat 8 v :: intBytes w (v / 256)

/-- What one `HashAppend` passes to `update` (base/hash.h 45-63). -/
def append1 : Val → Bytes
  | .int w v => intBytes w v
  | .str s => s
  | .none => []
  | .some v => append1 v

/-- The variadic `HashAppend` (base/hash.h 65-69): one value after the other. A hasher of xxhash digests the concatenation of
what it was passed. -/
def appendAll (vs : List Val) : Bytes := vs.flatMap append1

/-- `XXHash64(t...)` (base/hash.h 115-119), and with it the hash of tuples and pairs (121-137); `xxh` stands for the streaming
XXH64 with its default seed. `XXHash32` (109-113) is the same with another hasher. -/
def xxHash64 (xxh : Bytes → BitVec 64) (vs : List Val) : BitVec 64 := xxh (appendAll vs)

end Verif.Hash
