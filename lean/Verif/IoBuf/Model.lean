import Verif.Common.Run
/-!
# Model of `base::IoBuf` (base/io_buf.h, base/io_buf.cc)

Memory cells are `Option UInt8`: `none` is an indeterminate byte of a fresh allocation. Sizes are
natural numbers; a request whose `bit_ceil` does not fit in 64 bits is undefined behaviour (`none`).
Simplification: alignment is not modelled (it never changes which bytes are stored).
-/
namespace Verif.IoBuf

/-- A memory cell. -/
abbrev Cell := Option UInt8

/-- base/io_buf.h:177-186. `buf = none` is the null pointer of a moved-from object. -/
structure Buf where
  buf : Option (List Cell)
  offs : Nat
  size : Nat
  cap : Nat
  gen : Nat

/-- A default-initialised object before any `Reserve` (base/io_buf.h:177-186), which is also the
state of a moved-from object after the move constructor (base/io_buf.h:44-46). -/
def Buf.null : Buf := { buf := none, offs := 0, size := 0, cap := 0, gen := 0 }

/-- `absl::bit_ceil` (used in io_buf.cc:41,49): undefined above 2^63. -/
def bitCeil (n : Nat) : Option Nat :=
  if n ≤ 1 then some 1
  else if n ≤ 2 ^ 63 then some (2 ^ (Nat.log2 (n - 1) + 1))
  else none

/-- The cells `[pos, pos+len)` of an allocation; reading outside is undefined. -/
def load (m : List Cell) (pos len : Nat) : Option (List Cell) :=
  if pos + len ≤ m.length then some ((m.drop pos).take len) else none

/-- Overwrite the cells starting at `pos`; writing outside is undefined. -/
def store (m : List Cell) (pos : Nat) (bs : List Cell) : Option (List Cell) :=
  if pos + bs.length ≤ m.length then some (m.take pos ++ bs ++ m.drop (pos + bs.length)) else none

/-- base/io_buf.h:56-58, `InputLen`. -/
def Buf.inputLen (b : Buf) : Nat := b.size - b.offs

/-- base/io_buf.h:76-78, `AppendLen`. -/
def Buf.appendLen (b : Buf) : Nat := b.cap - b.size

/-- base/io_buf.h:60-66, the bytes seen through `InputBuffer()`. A null pointer may only be used for
an empty span. -/
def Buf.input (b : Buf) : Option (List Cell) :=
  match b.buf with
  | none => if b.inputLen = 0 then some [] else none
  | some m => load m b.offs b.inputLen

/-- base/io_buf.cc:57-72, `Reallocate`. -/
def Buf.reallocate (b : Buf) (newCap : Nat) : Option Buf :=
  let fresh : List Cell := List.replicate newCap none
  match b.buf with
  | none => some { b with buf := some fresh, cap := newCap, gen := b.gen + 1 }
  | some m =>
    if b.offs < b.size then
      match load m b.offs (b.size - b.offs) with
      | none => none
      | some bs =>
        match store fresh 0 bs with
        | none => none
        | some m' => some { buf := some m', offs := 0, size := b.size - b.offs, cap := newCap,
                            gen := b.gen + 1 }
    else some { buf := some fresh, offs := 0, size := 0, cap := newCap, gen := b.gen + 1 }

/-- base/io_buf.cc:37-43, `Reserve`. -/
def Buf.reserve (b : Buf) (sz : Nat) : Option Buf :=
  if sz < b.cap then some b
  else
    match bitCeil sz with
    | none => none
    | some c => b.reallocate c

/-- base/io_buf.h:32-35, the constructor with its `assert(capacity > 0)`. -/
def create (capacity : Nat) : Option Buf :=
  if 0 < capacity then Buf.null.reserve capacity else none

/-- base/io_buf.h:94-98, `EnsureCapacity`. -/
def Buf.ensureCapacity (b : Buf) (sz : Nat) : Option Buf :=
  if sz > b.appendLen then b.reserve (b.size + sz) else some b

/-- base/io_buf.h:127-134, `Compact`, including its `assert`. -/
def Buf.compact (b : Buf) : Option Buf :=
  if b.offs > 0 then
    if b.offs ≤ b.size then
      match b.buf with
      | none => none
      | some m =>
        match load m b.offs (b.size - b.offs) with
        | none => none
        | some bs =>
          match store m 0 bs with
          | none => none
          | some m' => some { b with buf := some m', size := b.size - b.offs, offs := 0 }
    else none
  else some b

/-- base/io_buf.cc:12-22, `ConsumeInput`. -/
def Buf.consumeInput (b : Buf) (sz : Nat) : Option Buf :=
  if b.offs + sz ≥ b.size then some { b with size := 0, offs := 0 }
  else
    let b1 := { b with offs := b.offs + sz }
    if 2 * b1.offs > b1.size ∧ b1.size - b1.offs < 512 then b1.compact else some b1

/-- base/io_buf.cc:24-29, `ReadAndConsume`, with its `assert`; returns the copied bytes. -/
def Buf.readAndConsume (b : Buf) (sz : Nat) : Option (List Cell × Buf) :=
  match b.input with
  | none => none
  | some bs =>
    if bs.length ≥ sz then (b.consumeInput sz).map (fun b' => (bs.take sz, b')) else none

/-- base/io_buf.h:80-87: the client writes `bs` to the front of `AppendBuffer()` and calls
`CommitWrite(bs.length)`. -/
def Buf.fillAndCommit (b : Buf) (bs : List UInt8) : Option Buf :=
  match b.buf with
  | none => if bs = [] then some b else none
  | some m =>
    match store m b.size (bs.map some) with
    | none => none
    | some m' => some { b with buf := some m', size := b.size + bs.length }

/-- base/io_buf.cc:31-35, `WriteAndCommit`. -/
def Buf.writeAndCommit (b : Buf) (bs : List UInt8) : Option Buf :=
  match b.ensureCapacity bs.length with
  | none => none
  | some b1 => b1.fillAndCommit bs

/-- base/io_buf.cc:45-55, `ShrinkTo`. -/
def Buf.shrinkTo (b : Buf) (target : Nat) : Option (Bool × Buf) :=
  if target ≥ b.cap then some (false, b)
  else
    match bitCeil target with
    | none => none
    | some t =>
      if t ≥ b.cap ∨ t < b.inputLen then some (false, b)
      else (b.reallocate t).map (fun b' => (true, b'))

/-- base/io_buf.h:114-117, `Clear`. -/
def Buf.clear (b : Buf) : Buf := { b with size := 0, offs := 0 }

/-- base/io_buf.cc:74-81 and base/io_buf.h:44-50: a move is `Swap` (new value of `*this`, of
`other`). -/
def moveAssign (self other : Buf) : Buf × Buf := (other, self)

/-- Client calls. -/
inductive Op where
  | writeAndCommit (bs : List UInt8)
  | fillAndCommit (bs : List UInt8)
  | consumeInput (n : Nat)
  | readAndConsume (n : Nat)
  | ensureCapacity (n : Nat)
  | reserve (n : Nat)
  | shrinkTo (n : Nat)
  | compact
  | clear
  | inputBuffer

/-- Observations. -/
inductive Out where
  | unit
  | bytes (bs : List Cell)
deriving DecidableEq, Repr

/-- One client call. -/
def Buf.step (b : Buf) : Op → Option (Out × Buf)
  | .writeAndCommit bs => (b.writeAndCommit bs).map (fun b' => (.unit, b'))
  | .fillAndCommit bs => (b.fillAndCommit bs).map (fun b' => (.unit, b'))
  | .consumeInput n => (b.consumeInput n).map (fun b' => (.unit, b'))
  | .readAndConsume n => (b.readAndConsume n).map (fun p => (.bytes p.1, p.2))
  | .ensureCapacity n => (b.ensureCapacity n).map (fun b' => (.unit, b'))
  | .reserve n => (b.reserve n).map (fun b' => (.unit, b'))
  | .shrinkTo n => (b.shrinkTo n).map (fun p => (.unit, p.2))
  | .compact => b.compact.map (fun b' => (.unit, b'))
  | .clear => some (.unit, b.clear)
  | .inputBuffer => b.input.map (fun bs => (.bytes bs, b))

end Verif.IoBuf
