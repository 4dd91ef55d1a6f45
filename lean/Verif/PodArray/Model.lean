/-!
# `base::PODArray`: `/repo/base/pmr/pod_array.h`

Simplifications:
* A byte is a natural number; an element is the list of its `k = sizeof(T)` bytes. `A` is `ALIGNMENT`.
* Memory obtained from the memory resource has arbitrary contents, given by the parameter `junk`.
* Byte counts do not wrap at 2^64.
* The ranges passed to `insert` and `assign` are not parts of the array itself (the code's comment on
  lines 302-303 forbids that).
* `none` is undefined behaviour: a write outside the allocation, or `deallocate` on a memory resource
  that did not allocate the block.
-/
namespace Verif.PodArray

/-- `sizeof(T)`, `ALIGNMENT`, and the contents of fresh memory. -/
structure Cfg where
  k : Nat
  A : Nat
  junk : Nat → Nat

/-- `PODArrayBase` (lines 34-38): the block with the resource that owns it, `c_end_ - c_start_`, and
`mr_`. `c_end_of_storage_ - c_start_` is the length of the block. -/
structure St where
  blk : Option (Nat × List Nat)
  len : Nat
  mr : Nat
deriving DecidableEq, Repr

/-- An array that has not allocated yet (line 40). -/
def init (mr : Nat) : St := ⟨none, 0, mr⟩

/-- `absl::bit_ceil`: the least power of two not below `n`. -/
def bitCeil (n : Nat) : Nat := if n ≤ 1 then 1 else 2 ^ (Nat.log2 (n - 1) + 1)

/-- `memory_resource::allocate`. -/
def fresh (c : Cfg) (n : Nat) : List Nat := (List.range n).map c.junk

/-- `minimum_memory_for_elements` (62-64). -/
def minMem (c : Cfg) (n : Nat) : Nat := max c.A (n * c.k)

/-- `alloc` (43-47). -/
def alloc (c : Cfg) (s : St) (bytes : Nat) : St :=
  ⟨some (s.mr, fresh c (bitCeil bytes)), 0, s.mr⟩

/-- `realloc` (70-82): allocate, copy, deallocate the old block. -/
def realloc (c : Cfg) (s : St) (bytes : Nat) : Option St :=
  match s.blk with
  | none => some (alloc c s bytes)
  | some (o, mem) =>
    let new := fresh c (bitCeil bytes)
    if s.len ≤ new.length ∧ s.len ≤ mem.length ∧ o = s.mr then
      some ⟨some (s.mr, mem.take s.len ++ new.drop s.len), s.len, s.mr⟩
    else none

/-- `allocated_size` (85-87). -/
def allocated (s : St) : Nat :=
  match s.blk with
  | none => 0
  | some (_, mem) => mem.length

/-- `capacity` (121-123). -/
def capacity (c : Cfg) (s : St) : Nat := allocated s / c.k

/-- `size` (124-126). -/
def size (c : Cfg) (s : St) : Nat := s.len / c.k

/-- `reserve(n)` (92-96). -/
def reserve (c : Cfg) (s : St) (n : Nat) : Option St :=
  if n > capacity c s then realloc c s (minMem c n) else some s

/-- The private `reserve()` (175-180). -/
def grow (c : Cfg) (s : St) : Option St :=
  match s.blk with
  | none => some (alloc c s (max c.A (minMem c 1)))
  | some _ => realloc c s (minMem c (capacity c s * 2))

/-- A write of bytes at an offset into the block; of no bytes, anywhere. -/
def write (s : St) (off : Nat) (bs : List Nat) : Option St :=
  match s.blk with
  | none => if bs = [] then some s else none
  | some (o, mem) =>
    if off + bs.length ≤ mem.length then
      some { s with blk := some (o, mem.take off ++ bs ++ mem.drop (off + bs.length)) }
    else if bs = [] then some s else none

/-- `push_back`, `emplace_back` (282-296). -/
def pushBack (c : Cfg) (s : St) (x : List Nat) : Option St :=
  match (if s.len = allocated s then grow c s else some s) with
  | none => none
  | some s =>
    match write s s.len x with
    | none => none
    | some s => some { s with len := s.len + c.k }

/-- `pop_back` (298-300). -/
def popBack (c : Cfg) (s : St) : St := { s with len := s.len - c.k }

/-- `resize`, `resize_assume_reserved` (98-105). -/
def resize (c : Cfg) (s : St) (n : Nat) : Option St :=
  match reserve c s n with
  | none => none
  | some s => some { s with len := n * c.k }

/-- The concatenated bytes of some elements. -/
def bytes (xs : List (List Nat)) : List Nat := xs.flatten

/-- `PODArray::resize_fill(n, value)` (273-280). -/
def resizeFill (c : Cfg) (s : St) (n : Nat) (x : List Nat) : Option St :=
  if n > size c s then
    match reserve c s n with
    | none => none
    | some s' =>
      match write s' s'.len (bytes (List.replicate (n - size c s) x)) with
      | none => none
      | some s' => some { s' with len := n * c.k }
  else some { s with len := n * c.k }

/-- `PODArrayBase::resize_fill(n)` (108-116): the length given to `memset` is a number of elements. -/
def baseResizeFill (c : Cfg) (s : St) (n : Nat) : Option St :=
  if n > size c s then
    match reserve c s n with
    | none => none
    | some s' =>
      match write s' s'.len (List.replicate (n - size c s) 0) with
      | none => none
      | some s' => some { s' with len := n * c.k }
  else some { s with len := n * c.k }

/-- The reservation that `insert` and `assign` make (305-307, 320-321, 343-344). -/
def ensure (c : Cfg) (s : St) (n : Nat) : Option St :=
  if n > capacity c s then reserve c s (bitCeil n) else some s

/-- `insert(from_begin, from_end)` at the end (304-310, 330-334). -/
def append (c : Cfg) (s : St) (xs : List (List Nat)) : Option St :=
  match ensure c s (size c s + xs.length) with
  | none => none
  | some s =>
    match write s s.len (bytes xs) with
    | none => none
    | some s => some { s with len := s.len + xs.length * c.k }

/-- The bytes of the block from `off` on. -/
def readBytes (s : St) (off n : Nat) : List Nat :=
  match s.blk with
  | none => []
  | some (_, mem) => (mem.drop off).take n

/-- `insert(it, from_begin, from_end)` (312-328), with `it = begin() + i`. -/
def insertAt (c : Cfg) (s : St) (i : Nat) (xs : List (List Nat)) : Option St :=
  let copy := xs.length * c.k
  let move := s.len - i * c.k
  match ensure c s (size c s + xs.length) with
  | none => none
  | some s1 =>
    match (if move = 0 then some s1
           else write s1 (s1.len + copy - move) (readBytes s1 (s1.len - move) move)) with
    | none => none
    | some s2 =>
      match write s2 (s2.len - move) (bytes xs) with
      | none => none
      | some s3 => some { s3 with len := s3.len + copy }

/-- `assign(n, x)` (336-339). -/
def assignN (c : Cfg) (s : St) (n : Nat) (x : List Nat) : Option St :=
  match resize c s n with
  | none => none
  | some s => write s 0 (bytes (List.replicate n x))

/-- `assign(from_begin, from_end)` (341-349). -/
def assignL (c : Cfg) (s : St) (xs : List (List Nat)) : Option St :=
  match ensure c s xs.length with
  | none => none
  | some s =>
    match write s 0 (bytes xs) with
    | none => none
    | some s => some { s with len := xs.length * c.k }

/-- `PODArray(n, mr)` (198-201): `n` elements with unspecified contents. -/
def ctorN (c : Cfg) (mr n : Nat) : St := { alloc c (init mr) (minMem c n) with len := n * c.k }

/-- `PODArray(n, x, mr)` (203-206). -/
def ctorFill (c : Cfg) (mr n : Nat) (x : List Nat) : Option St :=
  assignN c (alloc c (init mr) (minMem c n)) n x

/-- `PODArray(from_begin, from_end, mr)` (208-212). -/
def ctorRange (c : Cfg) (mr : Nat) (xs : List (List Nat)) : Option St :=
  append c (alloc c (init mr) (minMem c xs.length)) xs

/-- The destructor (214-216, 49-53). -/
def destroy (s : St) : Option Unit :=
  match s.blk with
  | none => some ()
  | some (o, _) => if o = s.mr then some () else none

/-- The move constructor (218-220, 128-133): `swap` exchanges the pointers, not `mr_`. Resource 0 is the
default resource. The first component is the new array, the second what is left of the old one. -/
def moveCtor (s : St) : St × St := (⟨s.blk, s.len, 0⟩, ⟨none, 0, s.mr⟩)

/-- `operator[]` (234-239). -/
def get (c : Cfg) (s : St) (i : Nat) : List Nat := readBytes s (i * c.k) c.k

/-- The operations on one array. -/
inductive Op
  | push (x : List Nat) | pop | reserve (n : Nat) | resize (n : Nat) | fill (n : Nat) (x : List Nat)
  | append (xs : List (List Nat)) | insert (i : Nat) (xs : List (List Nat))
  | assignN (n : Nat) (x : List Nat) | assign (xs : List (List Nat)) | clear
deriving DecidableEq, Repr

def step (c : Cfg) (s : St) : Op → Option St
  | .push x => pushBack c s x
  | .pop => some (popBack c s)
  | .reserve n => reserve c s n
  | .resize n => resize c s n
  | .fill n x => resizeFill c s n x
  | .append xs => append c s xs
  | .insert i xs => insertAt c s i xs
  | .assignN n x => assignN c s n x
  | .assign xs => assignL c s xs
  | .clear => some { s with len := 0 }

/-- A sequence of operations. -/
def run (c : Cfg) (s : St) : List Op → Option St
  | [] => some s
  | o :: os =>
    match step c s o with
    | none => none
    | some s => run c s os

end Verif.PodArray
