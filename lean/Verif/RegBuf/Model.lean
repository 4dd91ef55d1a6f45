import Verif.SegmentPool.Model
/-!
# Model of the registered buffers of `UringProactor` (util/fibers/uring_proactor.cc:405-463)

Addresses and sizes are natural numbers. `size_t` arithmetic wraps at 2^64 where the code can make it
wrap, and the implicit conversions to the `unsigned` parameters of `SegmentPool` are explicit.
`none` is undefined behaviour (in `SegmentPool::Return`).
-/
namespace Verif.RegBuf
open Verif.SegmentPool (Pool)

/-- util/fibers/uring_proactor.cc:66. -/
def kAlign : Nat := 4096

/-- `size_t`. -/
def u64 (n : Nat) : Nat := n % 2 ^ 64

/-- The conversion of a `size_t` to `unsigned`. -/
def u32 (n : Nat) : Nat := n % 2 ^ 32

/-- util/fibers/uring_proactor.cc:406 and :432, `(size + kAlign - 1) / kAlign`. -/
def segCount (size : Nat) : Nat := u64 (size + kAlign - 1) / kAlign

/-- util/fibers/uring_types.h:13-16 and uring_proactor.h:24-27. The buffer index, which is always 0,
is left out. -/
structure Slice where
  addr : Nat
  len : Nat
deriving DecidableEq, Repr

/-- util/fibers/uring_proactor.h:234-237, `buf_pool_`, with `mapped`, the memory the process got from
`mmap` for the pool and the kernel has registered (0 when there is none). -/
structure Ur where
  backing : Option Nat
  segments : Pool
  mapped : Nat
deriving DecidableEq, Repr

/-- A new proactor. -/
def Ur.new : Ur := { backing := none, segments := Verif.SegmentPool.create 0, mapped := 0 }

/-- What `io_uring_register_buffers` does with one buffer of `size` bytes: it refuses a second
registration (`EBUSY`) and buffers over 1 GB (`EFAULT`), and can fail for reasons of its own (`err`,
for example `ENOMEM`). 0 is success. -/
def kernelRegister (registered : Bool) (size err : Nat) : Nat :=
  if registered then 16 else if size > 2 ^ 30 then 14 else err

/-- util/fibers/uring_proactor.cc:405-427, `RegisterBuffers`. `map` is the result of `mmap`: an
address, or the value of `errno`; `mmap` refuses an empty mapping (`EINVAL`). -/
def Ur.register (u : Ur) (size : Nat) (map : Except Nat Nat) (err : Nat) : Nat × Ur :=
  let bytes := segCount size * kAlign
  match (if bytes = 0 then .error 22 else map) with
  | .error e => (e, u)
  | .ok ptr =>
    let res := kernelRegister (decide (0 < u.mapped)) bytes err
    if res ≠ 0 then (res, u)
    else
      (0, { backing := some ptr, segments := u.segments.grow (u32 (bytes / kAlign)), mapped := bytes })

/-- util/fibers/uring_proactor.cc:429-439, `RequestBuffer`, and :448-458,
`RequestRegisteredSlice`, which have the same body. -/
def Ur.request (u : Ur) (size : Nat) : Option Slice × Ur :=
  match u.backing with
  | none => (none, u)
  | some b =>
    let cnt := segCount size
    match u.segments.request (u32 cnt) with
    | (some off, p) => (some { addr := b + off * kAlign, len := cnt * kAlign }, { u with segments := p })
    | (none, p) => (none, { u with segments := p })

/-- util/fibers/uring_proactor.cc:441-446, `ReturnBuffer`, and :460-463, `ReturnRegisteredSlice`.
The debug check that a returned buffer has an index is left out: it always has. Returning a buffer
when nothing was registered is undefined. -/
def Ur.ret (u : Ur) (s : Slice) : Option Ur :=
  match u.backing with
  | none => none
  | some b => (u.segments.ret (u32 ((s.addr - b) / kAlign))).map (fun p => { u with segments := p })

/-- util/fibers/uring_proactor.cc:138-141: the memory that the destructor unmaps. -/
def Ur.unmapped (u : Ur) : Option (Nat × Nat) :=
  u.backing.map (fun b => (b, u.segments.size * kAlign))

end Verif.RegBuf
