import Verif.Common.TS
/-!
# Model of `folly::ProducerConsumerQueue` (base/ProducerConsumerQueue.h)

One producer thread and one consumer thread. Every atomic load/store, every construction, move-out and
destruction of a record is a separate step. Simplifications: sequentially consistent atomics; the
indices are natural numbers (they stay below `size_`, a `uint32_t`).
-/
namespace Verif.Spsc

/-- What the last step reported to its caller. -/
inductive Event (α : Type)
  | none
  | writeOk | writeFailed
  | readOk (v : α) | readFailed
  | front (idx : Nat) | frontNull
  | popped
  deriving DecidableEq

/-- Producer program counter, `write` (ProducerConsumerQueue.h:56-71). -/
inductive PPc (α : Type)
  | idle
  | loaded (x : α) (cur : Nat)              -- after line 57
  | space (x : α) (cur next : Nat)          -- after the test in line 62 succeeded
  | built (x : α) (next : Nat)              -- after the construction in line 63
  deriving DecidableEq

/-- Consumer program counter, `read` (74-89), `frontPtr` (93-100), `popFront` (103-113). -/
inductive CPc (α : Type)
  | idle
  | rLoaded (cur : Nat)                     -- after line 75
  | rAvail (cur next : Nat)                 -- after lines 76-84
  | rMoved (v : α) (cur next : Nat)         -- after the move in line 85
  | rDestroyed (v : α) (next : Nat)         -- after line 86
  | fLoaded (cur : Nat)                     -- after line 94
  | holding (cur : Nat)                     -- `frontPtr` returned a pointer to this slot
  | pLoaded (v : α) (cur next : Nat)        -- popFront, after lines 104-110; `v` is ghost: the record
  | pDestroyed (v : α) (next : Nat)         -- popFront, after line 111
  deriving DecidableEq

/-- The queue (165-170) with the two threads. `slots i = none` is raw storage. Ghost fields: `written`
and `taken` are the records whose write/removal has taken effect (index store), `ev` is the report of
the last step, `bad` is set by undefined behaviour (constructing over a live record, moving from or
destroying raw storage). -/
structure State (α : Type) where
  size : Nat
  r : Nat := 0
  w : Nat := 0
  slots : Nat → Option α := fun _ => none
  prod : PPc α := .idle
  cons : CPc α := .idle
  written : List α := []
  taken : List α := []
  ev : Event α := .none
  bad : Bool := false

/-- Moves. `write x`, `read`, `front`, `pop`, `drop` start a call (or forget a front pointer), `p`/`c`
continue the running call. -/
inductive Act (α : Type)
  | write (x : α) | p
  | read | front | pop | drop | c

/-- `cur + 1`, wrapping at `size_` (58-61, 81-84, 107-110). -/
def next (size cur : Nat) : Nat := if cur + 1 = size then 0 else cur + 1

variable {α : Type}

/-- One atomic step. -/
def step (s : State α) : Act α → Option (State α)
  | .write x =>
    match s.prod with
    | .idle => some { s with prod := .loaded x s.w, ev := .none }                      -- 57
    | _ => none
  | .p =>
    match s.prod with
    | .idle => none
    | .loaded x cur =>                                                                -- 58-62, 69-70
      if next s.size cur ≠ s.r then
        some { s with prod := .space x cur (next s.size cur), ev := .none }
      else some { s with prod := .idle, ev := .writeFailed }
    | .space x cur nxt =>                                                             -- 63-64
      some { s with prod := .built x nxt, slots := Common.upd s.slots cur (some x), ev := .none,
                    bad := s.bad || (s.slots cur).isSome || !decide (cur < s.size) }
    | .built x nxt =>                                                                 -- 65-66
      some { s with prod := .idle, w := nxt, written := s.written ++ [x], ev := .writeOk }
  | .read =>
    match s.cons with
    | .idle => some { s with cons := .rLoaded s.r, ev := .none }                       -- 75
    | _ => none
  | .front =>
    match s.cons with
    | .idle => some { s with cons := .fLoaded s.r, ev := .none }                       -- 94
    | _ => none
  | .pop =>
    match s.cons with
    | .holding _ =>                                                                   -- 104-110
      match s.slots s.r with
      | some v => some { s with cons := .pLoaded v s.r (next s.size s.r), ev := .none }
      | none => some { s with bad := true, ev := .none }
    | _ => none
  | .drop =>
    match s.cons with
    | .holding _ => some { s with cons := .idle, ev := .none }
    | _ => none
  | .c =>
    match s.cons with
    | .idle => none
    | .rLoaded cur =>                                                                 -- 76-84
      if cur = s.w then some { s with cons := .idle, ev := .readFailed }
      else some { s with cons := .rAvail cur (next s.size cur), ev := .none }
    | .rAvail cur nxt =>                                                              -- 85
      match s.slots cur with
      | some v => some { s with cons := .rMoved v cur nxt, ev := .none }
      | none => some { s with bad := true, ev := .none }
    | .rMoved v cur nxt =>                                                            -- 86
      some { s with cons := .rDestroyed v nxt, slots := Common.upd s.slots cur none, ev := .none,
                    bad := s.bad || (s.slots cur).isNone }
    | .rDestroyed v nxt =>                                                            -- 87-88
      some { s with cons := .idle, r := nxt, taken := s.taken ++ [v], ev := .readOk v }
    | .fLoaded cur =>                                                                 -- 95-99
      if cur = s.w then some { s with cons := .idle, ev := .frontNull }
      else some { s with cons := .holding cur, ev := .front cur }
    | .holding _ => none
    | .pLoaded v cur nxt =>                                                           -- 111
      some { s with cons := .pDestroyed v nxt, slots := Common.upd s.slots cur none, ev := .none,
                    bad := s.bad || (s.slots cur).isNone }
    | .pDestroyed v nxt =>                                                            -- 112
      some { s with cons := .idle, r := nxt, taken := s.taken ++ [v], ev := .popped }

/-- The constructor (176-180), which asserts `size >= 2`. -/
def Init (s : State α) : Prop := ∃ size, 2 ≤ size ∧ s = { size := size }

/-- `sizeGuess` (137-144), both loads at one instant. -/
def sizeGuess (s : State α) : Nat := if s.w < s.r then s.w + s.size - s.r else s.w - s.r

/-- `isEmpty` (115-118). -/
def isEmpty (s : State α) : Bool := s.r = s.w

/-- `isFull` (120-130). -/
def isFull (s : State α) : Bool := next s.size s.w = s.r

end Verif.Spsc
