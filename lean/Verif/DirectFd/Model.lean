import Verif.Common.Run

/-!
# The table of direct descriptors: `/repo/util/fibers/uring_proactor.cc`, lines 730-781

`RegisterFd` 730-750, `TranslateDirectFd` 752-757, `UnregisterFd` 759-781.

Simplifications: the table has a fixed size `n > 0` (an empty table always answers
`kInvalidDirectFd`); descriptors are natural numbers, a free element (-1) is `none`. Whether
`io_uring_register_files_update` succeeds is an input of the call. `UnregisterFd` of an index that is
not registered is a violated precondition (`DCHECK` lines 765 and 768) and so is the kernel failing
to unregister (`LOG(FATAL)` line 774): both are `none`. `kern` is the kernel's own table (ghost).
-/
namespace Verif.DirectFd

/-- `register_fds_`, `next_free_index_`, `direct_fds_cnt_`, and the kernel's table. -/
structure R where
  arr : List (Option Nat)
  next : Nat
  cnt : Nat
  kern : Nat → Option Nat

/-- A table of `n` free elements. -/
def R.init (n : Nat) : R := ⟨List.replicate n none, 0, 0, fun _ => none⟩

/-- `std::find(begin() + from, end(), -1)` (line 735): the first free position from `from` on. -/
def find (a : List (Option Nat)) (from_ : Nat) : Option Nat :=
  ((List.range a.length).filter (fun i => decide (from_ ≤ i))).find? (fun i => a[i]? == some none)

/-- Set a value of a function. -/
def put (f : Nat → Option Nat) (i : Nat) (v : Option Nat) : Nat → Option Nat :=
  fun j => if j = i then v else f j

inductive Op
  /-- `RegisterFd(fd)`; `ok`: the kernel accepts. -/
  | reg (fd : Nat) (ok : Bool)
  /-- `UnregisterFd(i)`. -/
  | unreg (i : Nat)
  /-- `TranslateDirectFd(i)`. -/
  | get (i : Nat)
deriving DecidableEq, Repr

/-- Results: an index (`none` is `kInvalidDirectFd`), or a descriptor. -/
inductive Res
  | index (i : Option Nat)
  | fd (f : Nat)
deriving DecidableEq, Repr

/-- One call. -/
def step (r : R) : Op → Option (Res × R)
  | .reg fd ok =>
    match find r.arr r.next with
    | none => some (.index none, r)
    | some i =>
      -- lines 739-741: stored before the kernel is asked
      let r1 := { r with arr := r.arr.set i (some fd), next := i }
      if ok then
        some (.index (some i), { r1 with next := i + 1, cnt := r.cnt + 1, kern := put r.kern i (some fd) })
      else some (.index none, r1)
  | .unreg i =>
    match r.arr[i]? with
    | some (some fd) =>
      some (.fd fd, { arr := r.arr.set i none, next := if i < r.next then i else r.next, cnt := r.cnt - 1,
                      kern := put r.kern i none })
    | _ => none
  | .get i =>
    match r.arr[i]? with
    | some (some fd) => some (.fd fd, r)
    | _ => none

end Verif.DirectFd
