import Verif.Tls.Model

/-!
# What users of the TLS socket rely on

The log of a history is judged by small machines. `wnext` follows the writes of one kind (blocking,
non-blocking, asynchronous): a call with bytes `d`, pieces of it that go to the peer, and the reported
count. `rnext` does the same for reads.
-/
namespace Verif.Tls

/-- Where a write is: not called, or called with `d`, of which `a` has gone to the engine. `bad`: the log
broke the rules. -/
inductive WSt | bad | idle | busy (d a : List Nat)
deriving DecidableEq, Repr

/-- The rules of writing: one call at a time; what goes to the engine is, piece after piece, a prefix of
`d`, each byte once; a count is returned that says exactly how much of it went. -/
def wnext (src : Src) : WSt → Obs → WSt
  | .idle, .call s d => if s = src then .busy d [] else .idle
  | .busy d a, .call s _ => if s = src then .bad else .busy d a
  | .busy d a, .enc s bs => if s = src then (if a ++ bs <+: d then .busy d (a ++ bs) else .bad) else .busy d a
  | .idle, .enc s _ => if s = src then .bad else .idle
  | .busy d a, .ret s n => if s = src then (if n = a.length then .idle else .bad) else .busy d a
  | .idle, .ret s _ => if s = src then .bad else .idle
  | .busy d a, .fail s _ => if s = src then .idle else .busy d a
  | .idle, .fail s _ => if s = src then .bad else .idle
  | st, _ => st

/-- The state of the writes of one kind after a log. -/
def wst (src : Src) (l : List Obs) : WSt := l.foldl (wnext src) .idle

/-- The same, but a count of 0 may be returned whatever has gone to the engine. -/
def wnext0 (src : Src) : WSt → Obs → WSt
  | .busy d a, .ret s 0 => if s = src then .idle else .busy d a
  | st, o => wnext src st o

/-- The state of the writes of one kind after a log, with the weaker rule. -/
def wst0 (src : Src) (l : List Obs) : WSt := l.foldl (wnext0 src) .idle

/-- Where a read is: not called, or called, with these bytes in its buffers. -/
inductive RSt | bad | idle | busy (a : List Nat)
deriving DecidableEq, Repr

/-- The rules of reading: one call at a time; the count returned is the number of bytes that were put into
its buffers, and a call that fails has put none. -/
def rnext (src : Src) : RSt → Obs → RSt
  | .idle, .rcall s => if s = src then .busy [] else .idle
  | .busy a, .rcall s => if s = src then .bad else .busy a
  | .busy a, .dec s bs => if s = src then .busy (a ++ bs) else .busy a
  | .idle, .dec s _ => if s = src then .bad else .idle
  | .busy a, .rret s n => if s = src then (if n = a.length then .idle else .bad) else .busy a
  | .idle, .rret s _ => if s = src then .bad else .idle
  | .busy a, .rfail s _ => if s = src then (if a = [] then .idle else .bad) else .busy a
  | .idle, .rfail s _ => if s = src then .bad else .idle
  | st, _ => st

/-- The state of the reads of one kind after a log. -/
def rst (src : Src) (l : List Obs) : RSt := l.foldl (rnext src) .idle

/-- All the plain text that went to the engine. -/
def encs (l : List Obs) : List Nat :=
  l.flatMap fun | .enc _ bs => bs | _ => []

/-- All the plain text that came from the engine. -/
def decs (l : List Obs) : List Nat :=
  l.flatMap fun | .dec _ bs => bs | _ => []

/-- The socket below has a write in flight, started by `x`, of these bytes. -/
def Writing (s : S) (x : Holder) (buf : List Nat) : Prop :=
  match x with
  | .fib f => ∃ k t, s.fib f = .netW buf k t
  | .req ρ => ∃ q, s.req ρ = some q ∧ q.up = .wr buf

/-- The socket below has a read in flight, started by `x`, into the input buffer at `pos`. -/
def Reading (s : S) (x : Holder) (pos : Nat) : Prop :=
  match x with
  | .fib f => ∃ k, s.fib f = .netR pos k
  | .req ρ => ∃ q, s.req ρ = some q ∧ q.up = .rd pos

/-- Vectors that can be written: some, none of them empty. -/
def GoodIov (iov : List (List Nat)) : Prop := iov ≠ [] ∧ [] ∉ iov

instance (iov : List (List Nat)) : Decidable (GoodIov iov) := by unfold GoodIov; infer_instance

/-- No asynchronous write of the user is in flight. -/
def NoAsyncWrite (s : S) : Prop :=
  match s.req .writer with
  | some ⟨.user _, _, _, _⟩ => False
  | _ => True

instance (s : S) : Decidable (NoAsyncWrite s) := by unfold NoAsyncWrite; split <;> infer_instance

/-- How the socket may be used: buffers are not empty, one asynchronous request of each kind at a time,
no asynchronous write while one is flushed in the background, no non-blocking call during an asynchronous
write. -/
def Contract (s : S) : Act → Prop
  | .write iov => GoodIov iov
  | .recv caps => caps ≠ [] ∧ 0 ∉ caps
  | .trySend iov => GoodIov iov ∧ NoAsyncWrite s
  | .tryRecv _ => NoAsyncWrite s
  | .asyncRead n => s.req .reader = none ∧ 0 < n
  | .asyncWrite iov => s.req .writer = none ∧ GoodIov iov
  | _ => True

instance (s : S) (a : Act) : Decidable (Contract s a) := by unfold Contract; split <;> infer_instance

/-- A history in which the contract is kept and no asynchronous request is ever deferred behind an
operation of another one. -/
def Calm (s : S) : List Act → Prop
  | [] => True
  | a :: l => Contract s a ∧ match s.step a with
    | none => True
    | some s1 => s1.blocked = none ∧ Calm s1 l

/-- Calls that suspend the fiber that makes them. -/
def Act.isFiber : Act → Bool
  | .write _ | .recv _ | .shutdown => true
  | _ => false

/-- What happens without any call: an operation of the socket below ends, a fiber that waits is run. -/
def Act.isEnv : Act → Bool
  | .netW .. | .netR .. | .resume _ | .aW .. | .aR .. => true
  | _ => false

end Verif.Tls
