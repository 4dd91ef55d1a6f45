import Verif.RegBuf.Model
import Verif.Common.Run
/-!
# The client of the registered buffers

The client remembers the slices it was given and has not returned.
-/
namespace Verif.RegBuf

/-- The calls of the thread that owns the proactor. -/
inductive Op where
  | register (size : Nat) (map : Except Nat Nat) (err : Nat)
  | request (size : Nat)
  | ret (s : Slice)

/-- What a call gives back. -/
inductive Out where
  | code (n : Nat)
  | slice (s : Option Slice)
  | done
deriving DecidableEq, Repr

structure Sys where
  ur : Ur
  live : List Slice
deriving DecidableEq, Repr

def Sys.new : Sys := { ur := Ur.new, live := [] }

/-- One call. `none` is undefined behaviour. -/
def Sys.step (s : Sys) : Op → Option (Out × Sys)
  | .register size map err =>
    let r := s.ur.register size map err
    some (.code r.1, { s with ur := r.2 })
  | .request size =>
    match s.ur.request size with
    | (some b, u) => some (.slice (some b), { ur := u, live := b :: s.live })
    | (none, u) => some (.slice none, { s with ur := u })
  | .ret b => (s.ur.ret b).map (fun u => (.done, { ur := u, live := s.live.erase b }))

/-- The sizes for which the number of 4 KB units is exact: not 0, and under 16 TB. -/
def SaneSize (size : Nat) : Prop := 0 < size ∧ size ≤ (2 ^ 32 - 1) * 4096

/-- The preconditions: sane sizes, only held slices are returned; `mmap` gives page aligned
addresses. -/
def pre (s : Sys) : Op → Prop
  | .register _ map _ => ∀ a, map = .ok a → a % 4096 = 0
  | .request size => SaneSize size
  | .ret b => b ∈ s.live

/-- The client respects the preconditions throughout the history. -/
def Valid (s : Sys) : List Op → Prop
  | [] => True
  | op :: ops => pre s op ∧ ∀ o s', s.step op = some (o, s') → Valid s' ops

/-- Two slices share no byte. -/
def Disjoint (a b : Slice) : Prop :=
  ∀ x, ¬ (a.addr ≤ x ∧ x < a.addr + a.len ∧ b.addr ≤ x ∧ x < b.addr + b.len)

/-- `b` lies inside the memory that was registered with the kernel. -/
def Inside (u : Ur) (b : Slice) : Prop :=
  ∃ base, u.backing = some base ∧ base ≤ b.addr ∧ b.addr + b.len ≤ base + u.mapped

end Verif.RegBuf
