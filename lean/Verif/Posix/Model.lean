import Verif.Io.Props
/-!
Model of the positional file reads: io/file.cc `ReadAll`, `ReadAllPosix`, `PosixReadFile::Read`; util/fibers/uring_file.cc `ReadAll`,
`ReadFileImpl::Read` (the same loops without the EINTR retry); io/file_util.cc `ReadFileToString`.
`pread`/`preadv` is an oracle (`PRead`), the memory is flat.
-/
namespace Verif.Posix
open Verif.Io

/-- io/file.cc 29-57 `ReadAll(fd, offset, next, len)` (`retry`), util/fibers/uring_file.cc 124-149 (no `retry`): the request is for
`len` bytes again after a partial read, as in the code. The first argument bounds the iterations. -/
def readTail {κ : Type} (retry : Bool) (pr : PRead κ) : Nat → (next len off got : Nat) → Mem → κ → Run Res (Mem × κ)
  | 0, _, _, _, _, _, _ => .more
  | f + 1, next, len, off, got, m, k =>
    match pr [⟨next, len⟩] off m k with
    | none => .ub
    | some (.err e, m, k) =>
      if retry && e == .interrupted then readTail retry pr f next len off got m k else .ret (.err e) (m, k)
    | some (.ok 0, m, k) => .ret (.ok got) (m, k)
    | some (.ok (n + 1), m, k) =>
      if got + (n + 1) = len then .ret (.ok len) (m, k)
      else readTail retry pr f (next + (n + 1)) len (off + (n + 1)) (got + (n + 1)) m k

/-- io/file.cc 293-339 `ReadAllPosix` (`retry`), util/fibers/uring_file.cc 161-211 `ReadFileImpl::Read` (no `retry`). `tot` is
`read_total`. -/
def readAll {κ : Type} (retry : Bool) (pr : PRead κ) : Nat → List Iov → (off tot : Nat) → Mem → κ → Run Res (Mem × κ)
  | 0, _, _, _, _, _ => .more
  | f + 1, vs, off, tot, m, k =>
    match pr vs (off + tot) m k with
    | none => .ub
    | some (.err e, m, k) => if retry && e == .interrupted then readAll retry pr f vs off tot m k else .ret (.err e) (m, k)
    | some (.ok 0, m, k) => .ret (.ok tot) (m, k)
    | some (.ok (n + 1), m, k) =>
      match skipDone vs (n + 1) with
      | ([], 0) => .ret (.ok (tot + (n + 1))) (m, k)
      | (v :: vs', 0) => readAll retry pr f (v :: vs') off (tot + (n + 1)) m k
      | ([], _ + 1) => .ub
      | (v :: vs', d + 1) =>
        match readTail retry pr (f + 1) (v.base + (d + 1)) (v.len - (d + 1)) (off + (tot + (n + 1))) 0 m k with
        | .ub => .ub
        | .more => .more
        | .ret (.err e) s => .ret (.err e) s
        | .ret (.ok g) s =>
          if g < v.len - (d + 1) then .ret (.ok (tot + (n + 1) + g)) s
          else if vs' = [] then .ret (.ok (tot + (n + 1) + g)) s
          else readAll retry pr f vs' off (tot + (n + 1) + g) s.1 s.2

/-- io/file.cc 135-149 `PosixReadFile::Read`; `size` is `file_size_`, the size at the time the file was opened -/
def posixRead {κ : Type} (pr : PRead κ) (f size off : Nat) (vs : List Iov) (m : Mem) (k : κ) : Run Res (Mem × κ) :=
  if vs = [] then .ret (.ok 0) (m, k)
  else if off > size then .ret (.err (.other 33)) (m, k)
  else readAll true pr f vs off 0 m k

/-- A reader of a file at a position: `ReadonlyFile::Read(offset, MutableBytes)` as a function from the position and the number of
bytes wanted to the bytes read or an error. -/
abbrev FileRead (κ : Type) := (off len : Nat) → κ → Except Err (List Byte) × κ

/-- io/file_util.cc 104-120: the loop of `ReadFileToString`. `value` is the string read so far (the part of `value` before `offset`),
`cap` is `value.size()`. -/
def readToString {κ : Type} (rd : FileRead κ) : Nat → (value : List Byte) → (cap : Nat) → κ → Run (Except Err (List Byte)) κ
  | 0, _, _, _ => .more
  | f + 1, value, cap, k =>
    match rd value.length (cap - value.length) k with
    | (.error e, k) => .ret (.error e) k
    | (.ok bs, k) =>
      if bs.length < cap - value.length then .ret (.ok (value ++ bs)) k
      else readToString rd f (value ++ bs.take (cap - value.length)) (cap * 2) k

/-- io/file_util.cc 94-126 `ReadFileToString`, after a successful open. The result of `Close` is ignored by the code. -/
def readFileToString {κ : Type} (rd : FileRead κ) (f : Nat) (k : κ) : Run (Except Err (List Byte)) κ := readToString rd f [] 4096 k

end Verif.Posix
