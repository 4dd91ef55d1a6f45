import Verif.Common.Run
/-!
`base::PmrArena` (base/pmr/arena.h, base/pmr/arena.cc). Memory is a range of addresses; the memory resource is the
environment: it may hand out any block that it is allowed to hand out. `Swap` and the destructor are not modelled.
-/
namespace Verif.Arena

/-- A byte range. -/
structure Range where
  lo : Nat
  sz : Nat
  deriving DecidableEq

/-- No byte in common. -/
def Range.Disjoint (a b : Range) : Prop := a.lo + a.sz ≤ b.lo ∨ b.lo + b.sz ≤ a.lo
instance (a b : Range) : Decidable (a.Disjoint b) := inferInstanceAs (Decidable (_ ∨ _))

/-- `a` is a part of `b`. -/
def Range.Inside (a b : Range) : Prop := b.lo ≤ a.lo ∧ a.lo + a.sz ≤ b.lo + b.sz

/-- The members (arena.h 43-61). `alloc_ptr_` is meaningful even when no block is allocated: then it is null and no bytes
remain. -/
structure Arena where
  ptr : Nat
  rem : Nat
  mem : Nat
  blocks : List Range
  deriving DecidableEq

/-- A new arena (arena.cc 14-15, arena.h 46-50). -/
def empty : Arena := { ptr := 0, rem := 0, mem := 0, blocks := [] }

/-- `kBlockSize` (arena.cc 11). -/
def blockSize : Nat := 8192

/-- What a memory resource may return for a request of `sz` bytes: an address aligned to 16, below 2^64, whose range is apart from
the blocks in use. -/
def Fresh (a : Arena) (p sz : Nat) : Prop := p % 16 = 0 ∧ p + sz ≤ 2 ^ 64 ∧ ∀ b ∈ a.blocks, b.Disjoint ⟨p, sz⟩
instance (a : Arena) (p sz : Nat) : Decidable (Fresh a p sz) := inferInstanceAs (Decidable (_ ∧ _))

/-- `AllocateNewBlock` (arena.cc 61-66): the parameter is a `uint32_t`. `none`: `p` is not an address that the resource may
return. -/
def newBlock (a : Arena) (bytes p : Nat) : Option (Nat × Arena) :=
  let sz := bytes % 2 ^ 32
  if Fresh a p sz then some (p, { a with mem := a.mem + sz, blocks := a.blocks ++ [⟨p, sz⟩] }) else none

/-- `AllocateFallback` (arena.cc 23-39). -/
def fallback (a : Arena) (bytes p : Nat) : Option (Nat × Arena) :=
  if bytes > blockSize / 4 then newBlock a bytes p
  else
    match newBlock a blockSize p with
    | none => none
    | some (r, a) => some (r, { a with ptr := r + bytes, rem := blockSize - bytes })

/-- `Allocate` (arena.h 68-81); its assertion is the guard. -/
def allocate (a : Arena) (bytes p : Nat) : Option (Nat × Arena) :=
  if bytes = 0 then none
  else if bytes ≤ a.rem then some (a.ptr, { a with ptr := a.ptr + bytes, rem := a.rem - bytes })
  else fallback a bytes p

/-- `AllocateAligned` (arena.cc 41-59), `sizeof(void*)` being 8. -/
def allocateAligned (a : Arena) (bytes p : Nat) : Option (Nat × Arena) :=
  let mod := a.ptr % 8
  let slop := if mod = 0 then 0 else 8 - mod
  let needed := (bytes + slop) % 2 ^ 64
  if needed ≤ a.rem then some (a.ptr + slop, { a with ptr := a.ptr + needed, rem := a.rem - needed })
  else fallback a bytes p

/-- A call: which function, how many bytes, and the address the memory resource would return if asked. -/
structure Op where
  aligned : Bool
  bytes : Nat
  p : Nat

def step (a : Arena) (o : Op) : Option (Nat × Arena) :=
  if o.aligned then allocateAligned a o.bytes o.p else allocate a o.bytes o.p

end Verif.Arena
