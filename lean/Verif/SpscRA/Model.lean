import Verif.RelAcq.Lemmas
/-!
`folly::ProducerConsumerQueue` (base/ProducerConsumerQueue.h) over the memory of C++ threads (`Verif.RelAcq`): one producer (thread 1) and one
consumer (thread 0). The two indices are atomic locations with the orders of the code; every record is a non-atomic location, whose
construction, moving out, use through `frontPtr` and destruction are accesses that may race. `Verif.Spsc` has the same code with
sequentially consistent indices. Simplification: the indices are natural numbers (they stay below `size_`, a `uint32_t`).
-/
namespace Verif.SpscRA
open Verif.Common Verif.RelAcq

/-- `writeIndex_`, `readIndex_` (169-170) and the records (167). -/
inductive Loc
  | w | r | slot (i : Nat)
  deriving DecidableEq

/-- The memory orders: `writeIndex_.store` (65) and `readIndex_.store` (87, 112) with release, `readIndex_.load` (62) and
`writeIndex_.load` (76, 95) with acquire. -/
structure Cfg where
  wRel : Bool
  rRel : Bool
  rAcq : Bool
  wAcq : Bool

/-- The orders of the code. -/
def theCode : Cfg := ⟨true, true, true, true⟩

inductive Event (α : Type)
  | none
  | writeOk | writeFailed
  | readOk (v : α) | readFailed
  | front (v : α) | frontNull
  | popped
  deriving DecidableEq

/-- Producer, `write` (56-71). -/
inductive PPc (α : Type)
  | idle
  | loaded (x : α) (cur : Nat)              -- after line 57
  | space (x : α) (cur next : Nat)          -- after the test in line 62 succeeded
  | built (x : α) (next : Nat)              -- after the construction in line 63
  deriving DecidableEq

/-- Consumer, `read` (74-89), `frontPtr` (93-100), `popFront` (103-113). -/
inductive CPc (α : Type)
  | idle
  | rLoaded (cur : Nat)                     -- after line 75
  | rAvail (cur next : Nat)                 -- after lines 76-84
  | rMoved (v : α) (cur next : Nat)         -- after the move in line 85
  | rDestroyed (v : α) (next : Nat)         -- after line 86
  | fLoaded (cur : Nat)                     -- after line 94
  | holding (cur : Nat)                     -- `frontPtr` returned a pointer to this record
  | pLoaded (cur next : Nat)                -- `popFront`, after lines 104-110
  | pDestroyed (v : α) (next : Nat)         -- `popFront`, after line 111; `v` is ghost: the record destroyed
  deriving DecidableEq

/-- The queue with its two threads. Ghost: `written`, `taken` are the records whose index store was done; `wN ts`, `rN ts` say how
many had been written or taken when the message of `writeIndex_`, `readIndex_` at `ts` was stored; `race` is set by an access to a record that
races with an earlier one; `bad` by constructing over a live record, and by moving from, reading or destroying raw storage. -/
structure State (α : Type) where
  size : Nat
  m : Mem Loc := Mem.start (fun _ => 0)
  slots : Nat → Option α := fun _ => none
  prod : PPc α := .idle
  cons : CPc α := .idle
  written : List α := []
  taken : List α := []
  wN : Nat → Nat := fun _ => 0
  rN : Nat → Nat := fun _ => 0
  ev : Event α := .none
  bad : Bool := false
  race : Bool := false

/-- Moves; `ts` is the message read or the place of the message stored. -/
inductive Act (α : Type)
  | write (x : α) (ts : Nat) | p (ts : Nat)
  | read (ts : Nat) | front (ts : Nat) | use | pop (ts : Nat) | drop | c (ts : Nat)

/-- `cur + 1`, wrapping at `size_` (58-61, 81-84, 107-110). -/
def next (size cur : Nat) : Nat := if cur + 1 = size then 0 else cur + 1

variable {α : Type}

/-- Thread `t` accesses record `i`. -/
def access (s : State α) (t i : Nat) : State α :=
  { s with m := s.m.touch t (.slot i), race := s.race || !s.m.clear t (.slot i) }

/-- Line 57. -/
def doWrite (s : State α) (x : α) (ts : Nat) : Option (State α) :=
  match s.m.load 1 .w false ts with
  | none => none
  | some (cur, m) => some { s with m := m, prod := .loaded x cur, ev := .none }

/-- Lines 58-62, 69-70. -/
def doSpace (c : Cfg) (s : State α) (x : α) (cur ts : Nat) : Option (State α) :=
  match s.m.load 1 .r c.rAcq ts with
  | none => none
  | some (r, m) =>
    if next s.size cur ≠ r then some { s with m := m, prod := .space x cur (next s.size cur), ev := .none }
    else some { s with m := m, prod := .idle, ev := .writeFailed }

/-- Lines 63-64. -/
def doBuild (s : State α) (x : α) (cur nxt : Nat) : Option (State α) :=
  some { access s 1 cur with prod := .built x nxt, slots := upd s.slots cur (some x), ev := .none,
                             bad := s.bad || (s.slots cur).isSome || !decide (cur < s.size) }

/-- Lines 65-66. -/
def doPublish (c : Cfg) (s : State α) (x : α) (nxt ts : Nat) : Option (State α) :=
  match s.m.store 1 .w nxt c.wRel ts with
  | none => none
  | some m => some { s with m := m, prod := .idle, written := s.written ++ [x], wN := upd s.wN ts (s.written.length + 1), ev := .writeOk }

/-- Lines 75, 94. -/
def doLoadR (s : State α) (q : Nat → CPc α) (ts : Nat) : Option (State α) :=
  match s.m.load 0 .r false ts with
  | none => none
  | some (cur, m) => some { s with m := m, cons := q cur, ev := .none }

/-- Lines 76-84. -/
def doAvail (c : Cfg) (s : State α) (cur ts : Nat) : Option (State α) :=
  match s.m.load 0 .w c.wAcq ts with
  | none => none
  | some (w, m) =>
    if cur = w then some { s with m := m, cons := .idle, ev := .readFailed }
    else some { s with m := m, cons := .rAvail cur (next s.size cur), ev := .none }

/-- Lines 95-99. -/
def doFront (c : Cfg) (s : State α) (cur ts : Nat) : Option (State α) :=
  match s.m.load 0 .w c.wAcq ts with
  | none => none
  | some (w, m) =>
    if cur = w then some { s with m := m, cons := .idle, ev := .frontNull }
    else some { s with m := m, cons := .holding cur, ev := .none }

/-- Line 85. -/
def doMove (s : State α) (cur nxt : Nat) : Option (State α) :=
  match s.slots cur with
  | some v => some { access s 0 cur with cons := .rMoved v cur nxt, ev := .none }
  | none => some { s with bad := true, ev := .none }

/-- The caller of `frontPtr` uses the record in place. -/
def doUse (s : State α) (cur : Nat) : Option (State α) :=
  match s.slots cur with
  | some v => some { access s 0 cur with ev := .front v }
  | none => some { s with bad := true, ev := .none }

/-- Lines 86, 111; `q v` is the next program counter. -/
def doDestroy (s : State α) (cur : Nat) (q : α → CPc α) : Option (State α) :=
  match s.slots cur with
  | some v => some { access s 0 cur with cons := q v, slots := upd s.slots cur none, ev := .none }
  | none => some { s with bad := true, ev := .none }

/-- Lines 87-88, 112. -/
def doRelease (c : Cfg) (s : State α) (v : α) (nxt ts : Nat) (e : Event α) : Option (State α) :=
  match s.m.store 0 .r nxt c.rRel ts with
  | none => none
  | some m => some { s with m := m, cons := .idle, taken := s.taken ++ [v], rN := upd s.rN ts (s.taken.length + 1), ev := e }

/-- The producer goes on. -/
def stepP (c : Cfg) (s : State α) (ts : Nat) : Option (State α) :=
  match s.prod with
  | .idle => none
  | .loaded x cur => doSpace c s x cur ts
  | .space x cur nxt => doBuild s x cur nxt
  | .built x nxt => doPublish c s x nxt ts

/-- The consumer goes on. -/
def stepC (c : Cfg) (s : State α) (ts : Nat) : Option (State α) :=
  match s.cons with
  | .idle => none
  | .rLoaded cur => doAvail c s cur ts
  | .rAvail cur nxt => doMove s cur nxt
  | .rMoved v cur nxt => doDestroy s cur (fun _ => .rDestroyed v nxt)
  | .rDestroyed v nxt => doRelease c s v nxt ts (.readOk v)
  | .fLoaded cur => doFront c s cur ts
  | .holding _ => none
  | .pLoaded cur nxt => doDestroy s cur (fun v => .pDestroyed v nxt)
  | .pDestroyed v nxt => doRelease c s v nxt ts .popped

/-- One step. -/
def step (c : Cfg) (s : State α) : Act α → Option (State α)
  | .write x ts =>
    match s.prod with
    | .idle => doWrite s x ts
    | _ => none
  | .p ts => stepP c s ts
  | .read ts =>
    match s.cons with
    | .idle => doLoadR s .rLoaded ts
    | _ => none
  | .front ts =>
    match s.cons with
    | .idle => doLoadR s .fLoaded ts
    | _ => none
  | .use =>
    match s.cons with
    | .holding cur => doUse s cur
    | _ => none
  | .pop ts =>
    match s.cons with
    | .holding _ => doLoadR s (fun cur => .pLoaded cur (next s.size cur)) ts        -- 104-110; the load in the assert is left out
    | _ => none
  | .drop =>
    match s.cons with
    | .holding _ => some { s with cons := .idle, ev := .none }
    | _ => none
  | .c ts => stepC c s ts

/-- The constructor (176-180), which asserts `size >= 2`. Handing the queue to the two threads happens before their calls. -/
def Init (s : State α) : Prop := ∃ size, 2 ≤ size ∧ s = { size := size }

end Verif.SpscRA
