import Verif.Common.Run
/-!
# Model of `base::SegmentPool` (base/segment_pool.h, base/segment_pool.cc)

Offsets and lengths are `unsigned` values, modelled as natural numbers; the only place where the
32-bit type can wrap, `Grow`, wraps explicitly. `none` is undefined behaviour.
-/
namespace Verif.SegmentPool

/-- base/segment_pool.h:34-35. `taken` is the deque of (offset, length). -/
structure Pool where
  size : Nat
  taken : List (Nat × Nat)
deriving DecidableEq, Repr

/-- base/segment_pool.h:15-16. -/
def create (size : Nat) : Pool := { size := size, taken := [] }

/-- base/segment_pool.cc:15-33, `Request`. -/
def Pool.request (p : Pool) (len : Nat) : Option Nat × Pool :=
  match p.taken with
  | [] => if len > p.size then (none, p) else (some 0, { p with taken := [(0, len)] })
  | front :: rest =>
    if len ≤ front.1 then
      (some (front.1 - len), { p with taken := (front.1 - len, len) :: front :: rest })
    else
      let back := (front :: rest).getLast (by simp)
      let tailMark := back.1 + back.2
      if tailMark + len ≤ p.size then
        (some tailMark, { p with taken := (front :: rest) ++ [(tailMark, len)] })
      else (none, p)

/-- `std::lower_bound(begin, end, (offset, 0))` (segment_pool.cc:41) on a range partitioned by
`< (offset,0)`: the index of the first entry whose offset is at least `offset`. -/
def lowerBound (l : List (Nat × Nat)) (offset : Nat) : Nat := l.findIdx (fun e => decide (offset ≤ e.1))

/-- segment_pool.cc:48-49: pop entries of length 0 from the front. -/
def popFront : List (Nat × Nat) → List (Nat × Nat)
  | [] => []
  | e :: l => if e.2 = 0 then popFront l else e :: l

/-- segment_pool.cc:51-52: pop entries of length 0 from the back. -/
def popBack (l : List (Nat × Nat)) : List (Nat × Nat) := (popFront l.reverse).reverse

/-- base/segment_pool.cc:35-53, `Return`. `front()` of an empty deque and dereferencing `end()` are
undefined behaviour. -/
def Pool.ret (p : Pool) (offset : Nat) : Option Pool :=
  match p.taken with
  | [] => none
  | front :: _ =>
    let it := if front.1 = offset then 0 else lowerBound p.taken offset
    match p.taken[it]? with
    | none => none
    | some e => some { p with taken := popBack (popFront (p.taken.set it (e.1, 0))) }

/-- base/segment_pool.cc:55-57, `Grow` (32-bit `unsigned` addition). -/
def Pool.grow (p : Pool) (additional : Nat) : Pool := { p with size := (p.size + additional) % 2 ^ 32 }

end Verif.SegmentPool
