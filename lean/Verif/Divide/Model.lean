/-!
# Division by multiplication

`/repo/base/libdivide.h`: the unsigned 32 and 64 bit division by a number that is fixed beforehand, as the hash map uses it to find its
buckets (`/repo/base/cuckoo_map-internal.h` 165-177, `/repo/base/cuckoo_map.cc` 427-437).

Words are natural numbers below `2^w`, every operation is followed by the reduction that the hardware does. The width `w` is 32 or 64.
The signed variants and the SSE2 variants, which nothing in the code calls, are left out.
-/
namespace Verif.Divide

/-- `LIBDIVIDE_32_SHIFT_MASK`, `LIBDIVIDE_64_SHIFT_MASK` (113-114) -/
def shiftMask (w : Nat) : Nat := if w = 32 then 0x1F else 0x3F
/-- `LIBDIVIDE_ADD_MARKER` (115) -/
def addMarker : Nat := 0x40
/-- `LIBDIVIDE_U32_SHIFT_PATH`, `LIBDIVIDE_U64_SHIFT_PATH` (116-117) -/
def shiftPath : Nat := 0x80

/-- `libdivide_u32_t`, `libdivide_u64_t` (122-140) -/
structure Denom where
  magic : Nat
  more : Nat
deriving DecidableEq, Repr

/-- `libdivide__count_trailing_zeros32`, `libdivide__count_trailing_zeros64` (414-442); `f` bounds the rounds. -/
def ctz : Nat → Nat → Nat
  | 0, _ => 0
  | f + 1, d => if d % 2 = 1 then 0 else ctz f (d / 2) + 1

/-- 31 less `libdivide__count_leading_zeros32`, 63 less `libdivide__count_leading_zeros64` (444-472): the position of the highest bit. -/
def topBit (d : Nat) : Nat := Nat.log2 d

/-! ### The wide division -/

/-- The instruction `divq` (491-499), or `divl` (477-481), or the 64 bit division of other machines for 32 bits (483-488): quotient and
remainder of `u1 * 2^w + u0`. The instruction traps if the quotient does not fit. -/
def divInstr (w u1 u0 v : Nat) : Option (Nat × Nat) :=
  if u1 < v then some ((u1 * 2 ^ w + u0) / v, (u1 * 2 ^ w + u0) % v) else none

/-- The number base of the portable division: 2^32 (506). -/
def B : Nat := 2 ^ 32

def M64 : Nat := 2 ^ 64

/-- `again1` and `again2` (535-541, 547-553); `n` bounds the rounds. Quotient and remainder digit. -/
def adjust (vn1 vn0 un : Nat) : Nat → Nat → Nat → Nat
  | 0, q, _ => q
  | n + 1, q, rhat =>
    if q ≥ B ∨ q * vn0 % M64 > (B * rhat + un) % M64 then
      if rhat + vn1 < B then adjust vn1 vn0 un n (q - 1) (rhat + vn1) else q - 1
    else q

/-- `libdivide_128_div_64_to_64` for machines without the instruction (505-559), for `u1 < v`. `junk` is what the machine makes of the
shift by 64 bits that is done if `v` is already normalized (its result is masked away). -/
def divPortable (junk : Nat) (u1 u0 v0 : Nat) : Option (Nat × Nat) :=
  if u1 ≥ v0 then some (M64 - 1, M64 - 1)
  else
    let s := 63 - topBit v0
    let v := v0 * 2 ^ s % M64
    let vn1 := v / B
    let vn0 := v % B
    let carry := if s = 0 then junk &&& 0 else u0 / 2 ^ (64 - s) &&& (M64 - 1)
    let un64 := u1 * 2 ^ s % M64 ||| carry
    let un10 := u0 * 2 ^ s % M64
    let un1 := un10 / B
    let un0 := un10 % B
    let q1 := adjust vn1 vn0 un1 B (un64 / vn1) (un64 - un64 / vn1 * vn1)
    let un21 := (un64 * B % M64 + un1 + (M64 - q1 * v % M64)) % M64
    let q0 := adjust vn1 vn0 un0 B (un21 / vn1) (un21 - un21 / vn1 * vn1)
    some ((q1 * B + q0) % M64, (un21 * B % M64 + un0 + (M64 - q0 * v % M64)) % M64 / 2 ^ s)

/-! ### The magic number and its use -/

/-- `libdivide_u32_gen` (577-614), `libdivide_u64_gen` (696-735), over one of the wide divisions. `none`: division by zero, where the
code counts the trailing zeros of zero, which is undefined. -/
def gen (w : Nat) (wide : Nat → Nat → Nat → Option (Nat × Nat)) (d : Nat) : Option Denom :=
  if d = 0 then none
  else if d &&& (d - 1) = 0 then some ⟨0, ctz w d ||| shiftPath⟩
  else
    let k := topBit d
    match wide (2 ^ k) 0 d with
    | none => none
    | some (m, rem) =>
      let e := d - rem
      if e < 2 ^ k then some ⟨(1 + m) % 2 ^ w, k⟩
      else
        let m2 := (m + m) % 2 ^ w
        let twice := (rem + rem) % 2 ^ w
        let m3 := if twice ≥ d ∨ twice < rem then (m2 + 1) % 2 ^ w else m2
        some ⟨(1 + m3) % 2 ^ w, k ||| addMarker⟩

/-- `libdivide__mullhi_u32` (232-236), `libdivide__mullhi_u64` (238-242) -/
def mulhi (w x y : Nat) : Nat := x * y / 2 ^ w

/-- `libdivide__mullhi_u64` without a type of 128 bits (243-255) -/
def mulhiSplit (x y : Nat) : Nat :=
  let x0 := x % B
  let x1 := x / B
  let y0 := y % B
  let y1 := y / B
  let hi := mulhi 32 x0 y0
  let temp := (x1 * y0 % M64 + hi) % M64
  (x1 * y1 % M64 + temp / B + (temp % B + x0 * y1 % M64) % M64 / B) % M64

/-- `libdivide_u32_do_alg0`, `libdivide_u64_do_alg0` (641-643, 762-764) -/
def alg0 (w n : Nat) (d : Denom) : Nat := n / 2 ^ (d.more &&& shiftMask w)

/-- `libdivide_u32_do_alg1`, `libdivide_u64_do_alg1` (645-648, 766-769) -/
def alg1 (w n : Nat) (d : Denom) : Nat := mulhi w d.magic n / 2 ^ d.more

/-- `libdivide_u32_do_alg2`, `libdivide_u64_do_alg2` (650-655, 771-775) -/
def alg2 (w n : Nat) (d : Denom) : Nat :=
  let q := mulhi w d.magic n
  let t := ((n + (2 ^ w - q)) % 2 ^ w / 2 + q) % 2 ^ w
  t / 2 ^ (d.more &&& shiftMask w)

/-- `libdivide_u32_get_algorithm`, `libdivide_u64_get_algorithm` (631-639, 752-760) -/
def algorithm (d : Denom) : Nat :=
  if d.more &&& shiftPath ≠ 0 then 0
  else if d.more &&& addMarker = 0 then 1
  else 2

/-- `libdivide_u32_do`, `libdivide_u64_do` (616-629, 737-750) -/
def divide (w n : Nat) (d : Denom) : Nat :=
  if d.more &&& shiftPath ≠ 0 then n / 2 ^ (d.more &&& shiftMask w)
  else
    let q := mulhi w d.magic n
    if d.more &&& addMarker ≠ 0 then
      ((n + (2 ^ w - q)) % 2 ^ w / 2 + q) % 2 ^ w / 2 ^ (d.more &&& shiftMask w)
    else q / 2 ^ d.more

/-- `CuckooMapTable::FromHash` (cuckoo_map-internal.h 166-177) with the fields that `SetBucketCount` (cuckoo_map.cc 427-437) computes. -/
def fromHash (wide : Nat → Nat → Nat → Option (Nat × Nat)) (count h : Nat) : Option Nat :=
  match gen 64 wide count with
  | none => none
  | some d =>
    let p := if algorithm d = 1 then alg1 64 h d else alg2 64 h d
    some ((h + (M64 - p * count % M64)) % M64)

end Verif.Divide
