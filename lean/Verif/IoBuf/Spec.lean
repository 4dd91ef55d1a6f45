import Verif.IoBuf.Model
/-!
# Specification of `IoBuf`: a byte queue, oldest byte first
-/
namespace Verif.IoBuf

/-- The bytes still to be read after a call, and what the call shows to the client. Capacity
management is invisible. -/
def specStep (q : List UInt8) : Op → Out × List UInt8
  | .writeAndCommit bs => (.unit, q ++ bs)
  | .fillAndCommit bs => (.unit, q ++ bs)
  | .consumeInput n => (.unit, q.drop n)
  | .readAndConsume n => (.bytes ((q.take n).map some), q.drop n)
  | .ensureCapacity _ => (.unit, q)
  | .reserve _ => (.unit, q)
  | .shrinkTo _ => (.unit, q)
  | .compact => (.unit, q)
  | .clear => (.unit, [])
  | .inputBuffer => (.bytes (q.map some), q)

/-- Outputs and final content of a history on the byte queue. -/
def specRun (q : List UInt8) : List Op → List Out × List UInt8
  | [] => ([], q)
  | op :: ops =>
    let p := specStep q op
    let r := specRun p.2 ops
    (p.1 :: r.1, r.2)

/-- Preconditions of the calls in terms of the public observers: do not write more than
`AppendLen()`, do not read more than `InputLen()` with `ReadAndConsume`, no total size above 2^63. -/
def pre (b : Buf) : Op → Prop
  | .writeAndCommit bs => b.size + bs.length ≤ 2 ^ 63
  | .fillAndCommit bs => bs.length ≤ b.appendLen
  | .readAndConsume n => n ≤ b.inputLen
  | .ensureCapacity n => b.size + n ≤ 2 ^ 63
  | .reserve n => n ≤ 2 ^ 63
  | .shrinkTo n => n ≤ 2 ^ 63
  | _ => True

/-- The client respects the preconditions throughout the history. -/
def Valid (b : Buf) : List Op → Prop
  | [] => True
  | op :: ops => pre b op ∧ ∀ o b', b.step op = some (o, b') → Valid b' ops

/-- `p` is the least power of two that is at least `n`. -/
def IsBitCeil (n p : Nat) : Prop := (∃ k, p = 2 ^ k) ∧ n ≤ p ∧ ∀ k, n ≤ 2 ^ k → p ≤ 2 ^ k

end Verif.IoBuf
