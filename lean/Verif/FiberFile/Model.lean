import Verif.Common.TS
/-!
`util::FiberReadFile` with prefetching (util/fibers/fiber_file.cc 26-65, 102-286): reads go through a buffer that is filled ahead
by a task in the thread pool.

Simplifications. The file does not change. `ReadAllPosix` on it (io/file.cc 293-339, modelled in Verif/Posix) either reads all the
bytes there are, up to the number wanted, or fails, leaving anything in the part it was to fill. The pool runs every task (C69).
The task of a prefetch is one step: it runs between two calls or while a call waits for it; `C70_disjoint` shows that it touches
other bytes than the calls do. One fiber uses the file. Offsets are below `SIZE_MAX`, which stands for "none" (line 52), and the
range of a read is not empty (io/file.h 47). Statistics are left out.
-/
namespace Verif.FiberFile
open Verif.Common

abbrev Byte := Nat

/-- What `ReadAllPosix` does: it reads what there is, or fails and leaves `g` in the memory. -/
inductive Out
  | ok
  | err (g : List Byte)
deriving DecidableEq, Repr

/-- The task of a prefetch (183-196): where it writes, how much, and from where in the file. -/
structure Job where
  ptr : Nat
  len : Nat
  offs : Nat
deriving DecidableEq, Repr

/-- A file that is read with prefetching (51-64). Pointers into `buf_` are numbers. -/
structure F where
  file : List Byte
  /-- `buf_`, of `buf_size_` bytes -/
  buf : List Byte
  /-- `prefetch_`: data and size -/
  pstart : Nat
  plen : Nat
  /-- `file_prefetch_offset_`, `none` is -1 -/
  fpo : Option Nat
  /-- `prefetch_ptr_` -/
  ptr : Option Nat
  /-- a task that the pool has not run yet -/
  job : Option Job
  /-- `done_` was notified and not reset -/
  ready : Bool
  /-- `prefetch_res_` -/
  res : Int
deriving DecidableEq, Repr

/-- Overwrite `buf` from `p` on. -/
def poke (buf : List Byte) (p : Nat) (bs : List Byte) : List Byte := buf.take p ++ bs ++ buf.drop (p + bs.length)

/-- The bytes of the file from `off` on, at most `n`. -/
def fileAt (file : List Byte) (off n : Nat) : List Byte := (file.drop off).take n

/-- The pool runs the task of a prefetch (192-196). -/
def F.run (s : F) (o : Out) : F :=
  match s.job with
  | none => s
  | some j =>
    match o with
    | .ok =>
      let bs := fileAt s.file j.offs j.len
      { s with buf := poke s.buf j.ptr bs, res := bs.length, ready := true, job := none }
    | .err g => { s with buf := poke s.buf j.ptr (g.take j.len), res := -1, ready := true, job := none }

/-- A call: it returns bytes or an error, waits for ever, fails a `CHECK` or uses memory outside `buf_`. -/
inductive Ans (α : Type)
  | ret (a : α) (s : F)
  | hang
  | crash
  | ub

/-- `size_t prefetch_res = prefetch_res_.load()` (238): the conversion from `ssize_t`. -/
def toSize (r : Int) : Nat := (r % 2 ^ 64).toNat

/-- `HandleActivePrefetch` (236-265); `o` is what the task does if it has not run yet. -/
def F.handleActive (s : F) (o : Out) : Ans Unit :=
  let s := s.run o
  if s.ready = false then .hang
  else
    let s := { s with ready := false }
    let r := toSize s.res
    if 0 < r then
      if s.plen = 0 then
        match s.ptr with
        | none => .ub
        | some p => .ret () { s with pstart := p, plen := r, ptr := none }
      else if s.ptr = some (s.pstart + s.plen) then .ret () { s with plen := (r + s.plen) % 2 ^ 64, ptr := none }
      else .crash
    else .ret () { s with fpo := none, ptr := none }

/-- `ReadFromCache` after the wait (211-234): the bytes copied and whether to go on. -/
def F.takeCache (s : F) (off n : Nat) : Ans (List Byte × Bool) :=
  if s.fpo ≠ some off then .ret ([], true) { s with pstart := 0, plen := 0 }
  else
    let k := min s.plen n
    if s.buf.length < s.pstart + k then .ub
    else
      let bs := (s.buf.drop s.pstart).take k
      let s := { s with fpo := some (off + k), pstart := s.pstart + k, plen := s.plen - k }
      if s.ptr.isSome ∨ s.buf.length / 2 ≤ s.plen then .ret (bs, false) s
      else if s.buf.length < s.pstart + s.plen then .ub
      else .ret (bs, true) { s with buf := poke s.buf 0 ((s.buf.drop s.pstart).take s.plen) }

/-- `ReadFromCache` (203-234) for a range of `n` bytes. -/
def F.fromCache (s : F) (off n : Nat) (o : Out) : Ans (List Byte × Bool) :=
  if (n > s.plen ∧ s.ptr.isSome) ∨ s.fpo ≠ some off then
    match s.handleActive o with
    | .hang => .hang
    | .crash => .crash
    | .ub => .ub
    | .ret _ s => s.takeCache off n
  else s.takeCache off n

/-- `ReadAndPrefetch` (139-199) after the part that uses the cache: `bs` are the bytes copied so far, `off` is the offset after
them, `n` is the size of the range. -/
def F.fill (s : F) (bs : List Byte) (off n : Nat) (o : Out) : Ans (Except Unit (List Byte)) :=
  let s := { s with pstart := 0 }
  if bs.length < n then
    let want := n - bs.length
    match o with
    | .err g => .ret (.error ()) { s with buf := poke s.buf s.plen (g.take (s.buf.length - s.plen)) }
    | .ok =>
      let got := fileAt s.file off (want + (s.buf.length - s.plen))
      if got.length ≤ want then .ret (.ok (bs ++ got)) s
      else .ret (.ok (bs ++ got.take want))
        { s with buf := poke s.buf s.plen (got.drop want), fpo := some (off + want), plen := got.length - want }
  else .ret (.ok bs) { s with ptr := some s.plen, job := some ⟨s.plen, s.buf.length - s.plen, s.fpo.getD 0 + s.plen⟩ }

/-- `ReadAndPrefetch` after `ReadFromCache` (128-135). -/
def goOn (r : Ans (List Byte × Bool)) (off n : Nat) (o : Out) : Ans (Except Unit (List Byte)) :=
  match r with
  | .hang => .hang
  | .crash => .crash
  | .ub => .ub
  | .ret (bs, more) s => if more then s.fill bs (off + bs.length) n o else .ret (.ok bs) s

/-- `Read(offset, range)` (267-276, 123-199) of `n` bytes; `o1` is for a task that is waited for and `o2` for the read of the call. -/
def F.read (s : F) (off n : Nat) (o1 o2 : Out) : Ans (Except Unit (List Byte)) :=
  if s.ptr.isSome ∨ s.plen ≠ 0 then goOn (s.fromCache off n o1) off n o2
  else s.fill [] off n o2

/-- `Close` (113-121): it waits for an active prefetch. -/
def F.close (s : F) (o : Out) : Ans Unit :=
  if s.ptr.isSome then
    let s := s.run o
    if s.ready = false then .hang else .ret () { s with ready := false, ptr := none }
  else .ret () s

/-- A new file with a prefetch buffer of `buf.length` bytes (102-111). -/
def F.new (file buf : List Byte) : F := ⟨file, buf, 0, 0, none, none, none, false, 0⟩

/-- What happens to a file: a read of `n + 1` bytes, or the pool runs the pending task. -/
inductive Act
  | read (off n : Nat) (o1 o2 : Out)
  | task (o : Out)
deriving DecidableEq, Repr

/-- No prefetch fails in this move. -/
def Act.fine : Act → Bool
  | .read _ _ o1 _ => o1 = .ok
  | .task o => o = .ok

def step (s : F) : Act → Option F
  | .read off n o1 o2 => match s.read off (n + 1) o1 o2 with
    | .ret _ s => some s
    | _ => none
  | .task o => if s.job = none then none else some (s.run o)

/-- Histories in which no prefetch fails; the reads that a call does itself may fail. -/
def stepFine (s : F) (a : Act) : Option F := if a.fine then step s a else none

/-- A new file; its size and that of the buffer fit into `ssize_t`. -/
def Init (s : F) : Prop := ∃ file buf, 0 < buf.length ∧ file.length + buf.length < 2 ^ 63 ∧ s = F.new file buf

end Verif.FiberFile
