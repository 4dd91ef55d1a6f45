/-!
# Model of `base::RingBuffer` (base/ring_buffer.h)

Counters are the C++ `unsigned` (`UInt32`, wrapping). The heap array is a list of length `cap`;
an access outside it, or a violated `assert`, is the outcome `none`.
-/
namespace Verif.RingBuffer

/-- base/ring_buffer.h:104-109 (fields `capacity_`, `mask_`, `head_`, `tail_`, `buf_`). -/
structure RB (α : Type) where
  cap : UInt32
  mask : UInt32
  head : UInt32
  tail : UInt32
  buf : List α

/-- base/ring_buffer.h:19-24, the constructor. `d` is the default-constructed `T`.
`none` is the failing `assert`. -/
def create {α : Type} (cap : UInt32) (d : α) : Option (RB α) :=
  let mask := cap - 1
  if mask &&& cap = 0 then
    some { cap := cap, mask := mask, head := 0, tail := 0, buf := List.replicate cap.toNat d }
  else none

/-- base/ring_buffer.h:26-28, `size()`. -/
def RB.size {α : Type} (r : RB α) : UInt32 := r.tail - r.head

/-- base/ring_buffer.h:30-32, `empty()`. -/
def RB.empty {α : Type} (r : RB α) : Bool := r.tail == r.head

/-- base/ring_buffer.h:34-36, `Full()`. -/
def RB.full {α : Type} (r : RB α) : Bool := r.tail - r.head == r.cap

/-- base/ring_buffer.h:59-71, `GetTail(override)`: the slot index (or null) and the new state. -/
def RB.getTail {α : Type} (r : RB α) (override : Bool) : Option UInt32 × RB α :=
  if r.full then
    if override then
      let r1 := { r with head := r.head + 1 }
      (some (r1.tail &&& r1.mask), { r1 with tail := r1.tail + 1 })
    else (none, r)
  else
    (some (r.tail &&& r.mask), { r with tail := r.tail + 1 })

/-- A store `*slot = u` through a pointer into `buf_`; out of bounds is `none`. -/
def RB.store {α : Type} (r : RB α) (i : UInt32) (u : α) : Option (RB α) :=
  if i.toNat < r.buf.length then some { r with buf := r.buf.set i.toNat u } else none

/-- base/ring_buffer.h:39-45, `TryEmplace`. -/
def RB.tryEmplace {α : Type} (r : RB α) (u : α) : Option (Bool × RB α) :=
  match r.getTail false with
  | (some slot, r1) => (r1.store slot u).map (fun r2 => (true, r2))
  | (none, r1) => some (false, r1)

/-- base/ring_buffer.h:50-54, `EmplaceOrOverride` (dereferencing a null tail would be `none`). -/
def RB.emplaceOrOverride {α : Type} (r : RB α) (u : α) : Option (Bool × RB α) :=
  let isFull := r.full
  match r.getTail true with
  | (some slot, r1) => (r1.store slot u).map (fun r2 => (isFull, r2))
  | (none, _) => none

/-- base/ring_buffer.h:74-81, `TryDeque`: the returned bool together with `t`. -/
def RB.tryDeque {α : Type} (r : RB α) : Option (Option α × RB α) :=
  if r.size = 0 then some (none, r)
  else (r.buf[(r.head &&& r.mask).toNat]?).map (fun x => (some x, { r with head := r.head + 1 }))

/-- base/ring_buffer.h:87-95, `operator[]`, including its `assert`. -/
def RB.get {α : Type} (r : RB α) (index : UInt32) : Option α :=
  if index < r.size then r.buf[((r.head + index) &&& r.mask).toNat]? else none

/-- base/ring_buffer.h:98-101, `ConsumeHead`, including its `assert`. -/
def RB.consumeHead {α : Type} (r : RB α) (n : UInt32) : Option (RB α) :=
  if n ≤ r.size then some { r with head := r.head + n } else none

/-- The public operations a client can call. -/
inductive Op (α : Type) where
  | tryEmplace (x : α)
  | emplaceOrOverride (x : α)
  | tryDeque
  | consumeHead (n : UInt32)
  | get (i : UInt32)
  | size
  | full
  | empty

/-- What a client observes. -/
inductive Out (α : Type) where
  | bool (b : Bool)
  | deque (x : Option α)
  | elem (x : α)
  | num (n : Nat)
  | unit
deriving DecidableEq, Repr

/-- One client call on the modelled object. -/
def RB.step {α : Type} (r : RB α) : Op α → Option (Out α × RB α)
  | .tryEmplace x => (r.tryEmplace x).map (fun p => (.bool p.1, p.2))
  | .emplaceOrOverride x => (r.emplaceOrOverride x).map (fun p => (.bool p.1, p.2))
  | .tryDeque => r.tryDeque.map (fun p => (.deque p.1, p.2))
  | .consumeHead n => (r.consumeHead n).map (fun r' => (.unit, r'))
  | .get i => (r.get i).map (fun x => (.elem x, r))
  | .size => some (.num r.size.toNat, r)
  | .full => some (.bool r.full, r)
  | .empty => some (.bool r.empty, r)

/-- A whole client history; `none` if some call is undefined behaviour. -/
def RB.run {α : Type} (r : RB α) : List (Op α) → Option (List (Out α) × RB α)
  | [] => some ([], r)
  | op :: ops =>
    match r.step op with
    | none => none
    | some (o, r1) =>
      match r1.run ops with
      | none => none
      | some (os, r2) => some (o :: os, r2)

end Verif.RingBuffer
