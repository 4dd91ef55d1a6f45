import Verif.BufRing.Model

/-!
# Provided-buffer rings: the kernel, and what the client should see

The storage is a ring of `N = n * esize` bytes. The kernel writes a byte stream into it: stream
position `x` is at storage offset `x % N`. `pos` is where the kernel writes next.

What the kernel does (`Kern.recv`), following `io_uring_setup_buf_ring(3)`, `IOU_PBUF_RING_INC` and
receive bundles:
* A completion takes `len > 0` consecutive stream positions, possibly across several buffers (a bundle).
* Incremental rings go on in the middle of the last buffer, other rings with the next buffer.
* A partly used buffer may be given up: the kernel continues with the next buffer.
* It writes only into buffers that are in the ring.
* `more` is `IORING_CQE_F_BUF_MORE`. It is set if one buffer was used and is not full; across several
  buffers nothing is assumed about it.
-/
namespace Verif.BufRing

/-- A completion the kernel has posted: where its bytes start in the stream, how many, the flag. -/
structure Compl where
  start : Nat
  len : Nat
  more : Bool
deriving DecidableEq, Repr

/-- The buffer id the kernel reports. -/
def Compl.bid (c : Cfg) (x : Compl) : Nat := x.start / c.esize % c.n

/-- The next stream position at a buffer boundary, at or after `x`. -/
def up (c : Cfg) (x : Nat) : Nat := (x + c.esize - 1) / c.esize * c.esize

/-- Where the kernel goes on after a completion. -/
def Compl.stop (c : Cfg) (x : Compl) : Nat := if c.inc then x.start + x.len else up c (x.start + x.len)

/-- The group, the kernel's position, and the completions not yet processed. `head` (ghost) counts the
buffers put back so far. -/
structure Sys where
  g : G
  pos : Nat
  pend : List Compl
  head : Nat

/-- A freshly registered ring. -/
def Sys.init (c : Cfg) : Sys := ⟨G.init c, 0, [], 0⟩

/-- Events: the kernel receives bytes, or the client's callback runs for the oldest completion. -/
inductive Act
  | recv (len : Nat) (skip more : Bool)
  | process
deriving DecidableEq, Repr

/-- What the kernel may do in state `s`. The ring holds the buffers `head … head + n - 1` of the stream. -/
def Allowed (c : Cfg) (s : Sys) : Act → Prop
  | .recv len skip more =>
    let start := if skip then up c s.pos else s.pos
    0 < len ∧ start + len ≤ (s.head + c.n) * c.esize ∧
      (c.inc = true → start % c.esize + len < c.esize → more = true)
  | .process => True

instance (c : Cfg) (s : Sys) (a : Act) : Decidable (Allowed c s a) := by
  cases a <;> unfold Allowed <;> exact inferInstance

/-- One event. Processing shows the completion and the slices the client was given. -/
def step (c : Cfg) (s : Sys) : Act → Option (Option (Compl × List Slice) × Sys)
  | .recv len skip more =>
    let x : Compl := ⟨if skip then up c s.pos else s.pos, len, more⟩
    some (none, { s with pos := x.stop c, pend := s.pend ++ [x] })
  | .process =>
    match s.pend with
    | [] => some (none, s)
    | x :: rest =>
      match recvCb c s.g x.len (x.bid c) x.more with
      | none => none
      | some (ss, g) => some (some (x, ss), { s with g := g, pend := rest, head := x.stop c / c.esize })

/-- The storage offsets of the bytes of a completion, in stream order. -/
def bytes (c : Cfg) (x : Compl) : List Nat :=
  (List.range x.len).map fun i => (x.start + i) % (c.n * c.esize)

/-- The storage offsets of the bytes of the slices, in order. -/
def handed (ss : List Slice) : List Nat := ss.flatMap fun s => List.range' s.addr s.len

/-- A legal configuration: `n` is a power of two up to 2^16, and the storage fits in 32 bits. -/
structure Legal (c : Cfg) : Prop where
  epos : 0 < c.esize
  npos : 0 < c.n
  dvd : c.n ∣ 65536
  fits : c.n * c.esize ≤ 2 ^ 32

/-- The states the system can reach: the kernel does only what it is allowed to. -/
inductive Reach (c : Cfg) : Sys → Prop
  | init : Reach c (Sys.init c)
  | step {s s' : Sys} {a : Act} {o} : Reach c s → Allowed c s a → step c s a = some (o, s') → Reach c s'

end Verif.BufRing
