import Verif.SegmentPool.Model
/-!
# The client of a `SegmentPool`

The client remembers the segments (offset, length) it was given and has not returned yet.
-/
namespace Verif.SegmentPool

/-- Client calls: request a length, return a held segment (by its offset), grow the pool. -/
inductive Op where
  | request (len : Nat)
  | ret (seg : Nat × Nat)
  | grow (n : Nat)

/-- The pool together with the segments held by the client. -/
structure Sys where
  pool : Pool
  live : List (Nat × Nat)

/-- One client call; the observation is the result of `Request`. -/
def Sys.step (s : Sys) : Op → Option (Option Nat × Sys)
  | .request len =>
    match s.pool.request len with
    | (some off, p) => some (some off, { pool := p, live := (off, len) :: s.live })
    | (none, p) => some (none, { s with pool := p })
  | .ret seg => (s.pool.ret seg.1).map (fun p => (none, { pool := p, live := s.live.erase seg }))
  | .grow n => some (none, { s with pool := s.pool.grow n })

/-- The calls' preconditions: no empty request, return only held segments, no 32-bit overflow. -/
def pre (s : Sys) : Op → Prop
  | .request len => 0 < len
  | .ret seg => seg ∈ s.live
  | .grow n => s.pool.size + n < 2 ^ 32

/-- The client respects the preconditions throughout the history. -/
def Valid (s : Sys) : List Op → Prop
  | [] => True
  | op :: ops => pre s op ∧ ∀ o s', s.step op = some (o, s') → Valid s' ops

/-- Two segments share no byte. -/
def Disjoint (a b : Nat × Nat) : Prop := ∀ x, ¬ (a.1 ≤ x ∧ x < a.1 + a.2 ∧ b.1 ≤ x ∧ x < b.1 + b.2)

end Verif.SegmentPool
