import Verif.Hash.Model
/-!
# Vocabulary of the hash properties

`ref` is MurmurHash3_x86_32 as it is published: a recursion over the bytes, four at a time.
-/
namespace Verif.Hash

/-- The number whose little-endian bytes these are. -/
def le : Bytes → Nat
  | [] => 0
  | b :: bs => b.toNat + 256 * le bs

/-- The published scrambling of a word. -/
def refK (k : W) : W := (k * 0xcc9e2d51#32).rotateLeft 15 * 0x1b873593#32

/-- The published step of the loop. -/
def refStep (h k : W) : W := (h ^^^ refK k).rotateLeft 13 * 5#32 + 0xe6546b64#32

/-- The published treatment of the last bytes. -/
def refLast (h k : W) : W := h ^^^ refK k

/-- The whole words of the bytes, four bytes each. -/
def words : Bytes → List Nat
  | b0 :: b1 :: b2 :: b3 :: rest => le [b0, b1, b2, b3] :: words rest
  | _ => []

/-- The bytes after the last whole word, fewer than four. -/
def leftover : Bytes → Bytes
  | _ :: _ :: _ :: _ :: rest => leftover rest
  | rest => rest

/-- The published loop over the words, then the last bytes. -/
def refBody (h : W) (d : Bytes) : W :=
  refLast ((words d).foldl (fun h k => refStep h (BitVec.ofNat 32 k)) h) (BitVec.ofNat 32 (le (leftover d)))

/-- The published finalizer. -/
def refF (h : W) : W :=
  let h := h ^^^ (h >>> 16)
  let h := h * 0x85ebca6b#32
  let h := h ^^^ (h >>> 13)
  let h := h * 0xc2b2ae35#32
  h ^^^ (h >>> 16)

/-- MurmurHash3_x86_32. -/
def ref (d : Bytes) (seed : W) : W := refF (refBody seed d ^^^ BitVec.ofNat 32 d.length)

/-- The two byte strings have the same length and differ only in block number `k` of four bytes. -/
def OneBlock (k : Nat) (a b : Bytes) : Prop :=
  a.length = b.length ∧ a ≠ b ∧ a.take (4 * k) = b.take (4 * k) ∧ a.drop (4 * k + 4) = b.drop (4 * k + 4)

/-- The type of a value: how many bytes an integer has, a string, or an optional of some type. -/
inductive Ty where
  | int (width : Nat)
  | str
  | opt (t : Ty)

/-- The value is of this type. -/
def HasTy : Val → Ty → Prop
  | .int w v, .int w' => w = w' ∧ v < 256 ^ w
  | .str _, .str => True
  | .none, .opt _ => True
  | .some v, .opt t => HasTy v t
  | _, _ => False

/-- Every value of the type has the same size. -/
def Ty.Fixed : Ty → Prop
  | .int _ => True
  | _ => False

/-- The values have these types, one for one. -/
def HasTys : List Val → List Ty → Prop
  | [], [] => True
  | x :: xs, t :: ts => HasTy x t ∧ HasTys xs ts
  | _, _ => False

end Verif.Hash
