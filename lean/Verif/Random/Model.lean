/-!
# Model of the random number generators (base/random.h)

Both classes are modelled in full. 64-bit arithmetic is `BitVec 64`, as in the code. `min()` and `max()` (43-49, 109-115)
are the bounds of the result type.
-/
namespace Verif.Random

abbrev W := BitVec 64

/-- `state_ += 0x9e3779b97f4a7c15` of `SplitMix64::operator()` (37). -/
def smStep (s : W) : W := s + 0x9e3779b97f4a7c15#64

/-- The rest of `SplitMix64::operator()` (38-40): the result, from the new state. -/
def smMix (z0 : W) : W :=
  let z1 := (z0 ^^^ (z0 >>> 30)) * 0xbf58476d1ce4e5b9#64
  let z2 := (z1 ^^^ (z1 >>> 27)) * 0x94d049bb133111eb#64
  z2 ^^^ (z2 >>> 31)

/-- `SplitMix64::operator()` (36-41): the result and the new state. -/
def smCall (s : W) : W × W := (smMix (smStep s), smStep s)

/-- `SplitMix64::seed` and the constructor (29-34): the state is the seed. -/
def smSeed (s : W) : W := s

/-- The state of a `Xoroshiro128p` (144): `state_[0]`, `state_[1]`. -/
abbrev S := W × W

/-- `Xoroshiro128p::rotl` (76-78). -/
def rotl (x : W) (k : Nat) : W := (x <<< k) ||| (x >>> (64 - k))

/-- The new state of `Xoroshiro128p::operator()` (98-104). -/
def next (s : S) : S :=
  let s0 := s.1
  let s1 := s.2 ^^^ s0
  (rotl s0 24 ^^^ s1 ^^^ (s1 <<< 16), rotl s1 37)

/-- The result of `Xoroshiro128p::operator()` (98-100, 106). -/
def result (s : S) : W := s.1 + s.2

/-- The default constructor (83-84). -/
def fresh : S := (0xc898c79bcd50055b#64, 0x5dfe998262db6465#64)

/-- `Xoroshiro128p::seed` and the constructor with a seed (86-95): the first two results of a `SplitMix64`. -/
def seed (s : W) : S :=
  let r0 := smCall (smSeed s)
  let r1 := smCall r0.2
  (r0.1, r1.1)

/-- One round of the inner loop of `Xoroshiro128p::jump` (130-136); the pair is `(s0, s1)` of the code and the state of
the generator. -/
def jumpRound (w : W) (a : S × S) (b : Nat) : S × S :=
  (if w.getLsbD b then (a.1.1 ^^^ a.2.1, a.1.2 ^^^ a.2.2) else a.1, next a.2)

/-- `Xoroshiro128p::jump` (120-141) with the table `JUMP` as a parameter. -/
def jumpWith (table : List W) (s : S) : S :=
  (table.foldl (fun a w => (List.range 64).foldl (jumpRound w) a) ((0, 0), s)).1

/-- The table of the code (121-124). -/
def table : List W := [0xbeac0467eba5facb#64, 0xd86b048b86aa9922#64]

def jump (s : S) : S := jumpWith table s

end Verif.Random
