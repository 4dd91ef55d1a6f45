import Verif.Common.TS

/-!
# Provided-buffer rings: `/repo/util/fibers/uring_proactor.cc`

`BufRingGroup` 69-126, `RegisterBufferRing` 465-513, `BufRingGetBufPtr` 516-529,
`BufRingTrackRecvCompletion` 531-553, and the loop that uses them in
`/repo/util/fibers/uring_socket.cc` 466-484 (`RegisterOnRecv`).

A group has `n` buffers of `esize` bytes in one allocation. The kernel fills them in ring order and
reports `(bufid, length, flags)`; the code has to find out where the bytes are, and puts every
buffer it is done with back into the ring.

Simplifications:
* `n` is a power of two below 2^15 in the code (lines 466-467); here it divides 2^16. `ring->tail`
  and `cached_head` are 16-bit, `bid * entry_size` is computed in 32 bits, `incr_offset + size` is
  taken not to wrap (`esize` below 2^31).
* The callback of the client (`cb(RecvNotification…)`) only sees the slice.
* `none` is undefined behaviour: a buffer id that is not the current one (`DCHECK` lines 115, 526,
  534), after which the code works on the wrong buffer.
-/
namespace Verif.BufRing

open Verif.Common (upd)

/-- The constants of a group: number of buffers, their size, and `incremental_buf_ring_f_`. -/
structure Cfg where
  n : Nat
  esize : Nat
  inc : Bool
deriving DecidableEq, Repr

/-- `BufRingGroup` (69-105): `cached_head`, `ring->tail`, `incr_offset`, and the `bid` fields of
`ring->bufs`. -/
structure G where
  head : Nat
  tail : Nat
  off : Nat
  bufs : Nat → Nat

/-- `RegisterBufferRing` 499-511: buffer `i` is put at position `i`, and the tail moves by `n`. -/
def G.init (c : Cfg) : G := ⟨0, c.n % 65536, 0, fun i => i⟩

/-- `current_buf().bid` (92-94): `& (size - 1)` is `%` for a power of two. -/
def G.cur (c : Cfg) (g : G) : Nat := g.bufs (g.head % c.n)

/-- `AdvanceHead` (96-101): put the current buffer back at the tail, move on to the next one.
`io_uring_buf_ring_add` writes at `tail & mask`. -/
def G.advance (c : Cfg) (g : G) : G :=
  { head := (g.head + 1) % 65536, tail := (g.tail + 1) % 65536, off := 0,
    bufs := upd g.bufs (g.tail % c.n) (g.cur c) }

/-- A slice of the group's storage, as an offset and a length. -/
structure Slice where
  addr : Nat
  len : Nat
deriving DecidableEq, Repr

/-- The offset of a buffer in the storage, computed in 32 bits (108 and 117). -/
def base (c : Cfg) (bid : Nat) : Nat := (bid * c.esize) % 2 ^ 32

/-- `BufRingGetBufPtr` and `GetBufPtr` (516-529, 112-126). -/
def getPtr (c : Cfg) (g : G) (bid len : Nat) : Option (Slice × G) :=
  let g := if g.cur c ≠ bid then g.advance c else g
  if g.cur c = bid then
    some (⟨base c bid + g.off, if len + g.off > c.esize then c.esize - g.off else len⟩, g)
  else none

/-- `BufRingTrackRecvCompletion` (531-553). -/
def track (c : Cfg) (g : G) (size bid : Nat) (incremental : Bool) : Option (Nat × G) :=
  if bid = g.cur c then
    if c.inc && incremental && decide (g.off + size < c.esize) then
      some (bid, { g with off := g.off + size })
    else
      let g := g.advance c
      some (g.cur c, g)
  else none

/-- The `while (res > 0)` loop of the receive callback (uring_socket.cc 474-484). The first argument
bounds the iterations; each one consumes at least a byte. -/
def loop (c : Cfg) : Nat → G → Nat → Nat → Bool → Option (List Slice × G)
  | 0, g, res, _, _ => if res = 0 then some ([], g) else none
  | fuel + 1, g, res, bid, incremental =>
    if res = 0 then some ([], g)
    else
      match getPtr c g bid res with
      | none => none
      | some (sl, g) =>
        match track c g sl.len bid incremental with
        | none => none
        | some (bid, g) =>
          match loop c fuel g (res - sl.len) bid true with
          | none => none
          | some (ss, g) => some (sl :: ss, g)

/-- The receive callback for one completion: the slices the client is given. -/
def recvCb (c : Cfg) (g : G) (res bid : Nat) (more : Bool) : Option (List Slice × G) :=
  loop c res g res bid more

end Verif.BufRing
