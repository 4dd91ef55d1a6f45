import Verif.Common.TS
/-!
# Model of `base::MPSCIntrusiveQueue` (base/mpsc_intrusive_queue.h)

Any number of producer threads and one consumer. Every load, store and exchange of shared memory is a separate
step; `head_` is private to the consumer, so its updates are part of the neighbouring step. Nodes are natural
numbers, node `0` is the embedded stub (38-40). Simplification: sequentially consistent atomics.

The client may do anything to the link field of a node it owns (`scribble`), and re-push a node
once it was popped. If the queue touches the link of a node owned by the client, `bad` is set.
-/
namespace Verif.Mpsc
open Verif.Common

/-- A producer inside `Push(x)` (52-67). -/
inductive Pc
  | idle
  | reset (x : Nat)               -- before line 54
  | swap (x : Nat)                -- before line 59
  | link (prev x : Nat)           -- before line 66
  deriving DecidableEq

/-- The consumer inside `PopWeak` (93-157). -/
inductive CPc
  | idle
  | load                          -- before line 97
  | tailA                         -- stub is head and has no next; before line 119
  | load2                         -- the stub was skipped; before line 126
  | tailB                         -- before line 135
  | pushReset                     -- in Push(stub()), before line 54
  | pushSwap                      -- before line 59
  | pushLink (prev : Nat)         -- before line 66
  | load3                         -- before line 149
  deriving DecidableEq

/-- Report of the last step. `null true` is `{nullptr, true}` (or `nullptr` from `Pop`), `null false` is
`{nullptr, false}` from `PopWeak`. -/
inductive Event
  | none | item (x : Nat) | null (empty : Bool)
  deriving DecidableEq

/-- The queue, its threads and ghost fields: `client x` says that the client owns node `x`, `pushed` lists the
client's nodes in the order in which pushes exchanged the tail, `popped` the nodes returned by pops, `chain` the
nodes from head to tail in exchange order. `strong` says that the running pop is `Pop` (70-77). -/
structure State where
  next : Nat → Option Nat := fun _ => none
  head : Nat := 0
  tail : Nat := 0
  th : List Pc
  cons : CPc := .idle
  strong : Bool := false
  client : Nat → Bool := fun _ => true
  pushed : List Nat := []
  popped : List Nat := []
  chain : List Nat := [0]
  ev : Event := .none
  bad : Bool := false

inductive Act
  | push (t x : Nat)              -- producer t calls Push(x)
  | go (t : Nat)                  -- producer t continues
  | pop (strong : Bool)           -- consumer calls Pop / PopWeak
  | c                             -- consumer continues
  | scribble (x : Nat) (v : Option Nat)  -- the client writes the link of a node it owns

/-- Touching the link field of `x` is an error if the client owns `x`. -/
def State.clash (s : State) (x : Nat) : Bool := s.bad || (x ≠ 0 && s.client x)

/-- The consumer touches the link field of `x`. -/
def State.touch (s : State) (x : Nat) : State := { s with bad := s.clash x, ev := .none }

/-- `{nullptr, false}`: `Pop` tries again (71-75), `PopWeak` returns. -/
def State.retry (s : State) : State :=
  if s.strong then { s with cons := .load, ev := .none } else { s with cons := .idle, ev := .null false }

/-- Returning the head node `x` after moving the head to `n` (131-132, 151-152). -/
def State.deliver (s : State) (n : Nat) : State :=
  { s with head := n, cons := .idle, ev := .item s.head, client := upd s.client s.head true,
           popped := s.popped ++ [s.head], chain := s.chain.tail }

/-- One step of a producer. -/
def stepP (s : State) (t : Nat) : Pc → Option State
  | .idle => none
  | .reset x => some { s with next := upd s.next x .none, th := s.th.set t (.swap x), ev := .none,
                              bad := s.clash x }
  | .swap x => some { s with tail := x, th := s.th.set t (.link s.tail x), ev := .none,
                             pushed := s.pushed ++ [x], chain := s.chain ++ [x] }
  | .link prev x => some { s with next := upd s.next prev (some x), th := s.th.set t .idle, ev := .none,
                                  bad := s.clash prev }

/-- One step of the consumer. -/
def stepC (s : State) : CPc → Option State
  | .idle => none
  | .load =>                                                                             -- 97-99, 129
    match s.next s.head with
    | none => if s.head = 0 then some { s.touch s.head with cons := .tailA }
              else some { s.touch s.head with cons := .tailB }
    | some n => if s.head = 0 then some { s.touch s.head with head := n, chain := s.chain.tail, cons := .load2 }
                else some ((s.touch s.head).deliver n)                                   -- 124-125, 131-132
  | .tailA =>                                                                            -- 119-120
    if s.tail = s.head then some { s with cons := .idle, ev := .null true } else some s.retry
  | .load2 =>                                                                            -- 126-132
    match s.next s.head with
    | none => some { s.touch s.head with cons := .tailB }
    | some n => some ((s.touch s.head).deliver n)
  | .tailB =>                                                                            -- 135-138
    if s.tail = s.head then some { s with cons := .pushReset, ev := .none } else some s.retry
  | .pushReset => some { s with next := upd s.next 0 none, cons := .pushSwap, ev := .none }   -- 144, 54
  | .pushSwap => some { s with tail := 0, cons := .pushLink s.tail, ev := .none,              -- 59
                               chain := s.chain ++ [0] }
  | .pushLink prev => some { s with next := upd s.next prev (some 0), cons := .load3, ev := .none,
                                    bad := s.clash prev }                                     -- 66
  | .load3 =>                                                                            -- 149-156
    match s.next s.head with
    | none => some (s.touch s.head).retry
    | some n => some ((s.touch s.head).deliver n)

def step (s : State) : Act → Option State
  | .push t x =>
    if x ≠ 0 ∧ s.client x = true then
      match s.th[t]? with
      | some .idle => some { s with th := s.th.set t (.reset x), client := upd s.client x false, ev := .none }
      | _ => none
    else none
  | .go t => match s.th[t]? with
    | some pc => stepP s t pc
    | none => none
  | .pop strong => match s.cons with
    | .idle => some { s with cons := .load, strong := strong, ev := .none }
    | _ => none
  | .c => stepC s s.cons
  | .scribble x v => if x ≠ 0 ∧ s.client x = true then some { s with next := upd s.next x v, ev := .none } else none

/-- The constructor (43-45) and any number of idle producers; the client's nodes hold arbitrary links. -/
def Init (s : State) : Prop := ∃ n f, f 0 = none ∧ s = { next := f, th := List.replicate n .idle }

/-- `Empty` (85-90). -/
def isEmpty (s : State) : Bool := s.head = 0 && (s.next s.head).isNone

end Verif.Mpsc
