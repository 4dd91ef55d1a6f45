import Verif.Common.TS
/-!
# Model of `base::mpmc_bounded_queue` (base/mpmc_bounded_queue.h)

Any number of threads, each running `try_enqueue`, `try_dequeue` or, in the single-consumer
configuration, `try_dequeue_sc`. Every atomic access, construction, move-out and destruction is a separate
step. Simplifications: sequentially consistent atomics; positions and sequence numbers are natural numbers
instead of wrapping 64-bit integers (they differ only after 2^63 operations), so the signed differences
`dif` are comparisons; the value of `pos` reloaded by a failed CAS is dropped, because the loop reloads it.
-/
namespace Verif.Mpmc

inductive Event (α : Type)
  | none | enqOk | enqFailed | deqOk (v : α) | deqFailed
  deriving DecidableEq

/-- Program counters. `e*` is `try_enqueue` (87-108), `d*` is `try_dequeue` (110-134), `s*` is
`try_dequeue_sc` (138-156). -/
inductive Pc (α : Type)
  | idle
  | eStart (x : α)                 -- before line 92
  | eLoaded (x : α) (pos : Nat)    -- after line 92
  | eReady (x : α) (pos : Nat)     -- sequence == pos (96)
  | eClaimed (x : α) (pos : Nat)   -- CAS succeeded (98)
  | eBuilt (x : α) (pos : Nat)     -- constructed (105)
  | dStart                         -- before line 115
  | dLoaded (pos : Nat)            -- after line 115
  | dReady (pos : Nat)             -- sequence == pos + 1 (119)
  | dClaimed (pos : Nat)           -- CAS succeeded (120)
  | dMoved (v : α) (pos : Nat)     -- moved out (128)
  | dDestroyed (v : α) (pos : Nat) -- destroyed (129)
  | sStart                         -- before line 139
  | sLoaded (pos : Nat)            -- after line 139
  | sReady (pos : Nat)             -- not empty (143)
  | sMoved (v : α) (pos : Nat)     -- moved out (148)
  | sDestroyed (v : α) (pos : Nat) -- destroyed (149)
  | sStored (v : α) (pos : Nat)    -- dequeue_pos_ advanced (151)
  deriving DecidableEq

/-- The queue (187-193) and its threads. `val c = none` is raw storage. `sc = some t` is the configuration in
which thread `t` is the only consumer and uses `try_dequeue_sc`. Ghost fields: `enq` lists the values of the
enqueues in the order in which they claimed a position, `got` the completed dequeues with the position each had
claimed, `ev` is the report of the last step, `bad` is set by undefined behaviour. -/
structure State (α : Type) where
  mask : Nat
  sc : Option Nat
  seq : Nat → Nat
  val : Nat → Option α := fun _ => none
  enqPos : Nat := 0
  deqPos : Nat := 0
  th : List (Pc α)
  enq : List α := []
  got : List (Nat × α) := []
  ev : Event α := .none
  bad : Bool := false

/-- Moves: thread `t` starts a call, continues it, or suffers a spurious failure of its weak CAS. -/
inductive Act (α : Type)
  | enqueue (t : Nat) (x : α)
  | dequeue (t : Nat)
  | go (t : Nat)
  | casFail (t : Nat)

variable {α : Type}

/-- `&buffer_[pos & buffer_mask_]` (93, 116, 140). -/
def State.cell (s : State α) (pos : Nat) : Nat := pos &&& s.mask

def State.setPc (s : State α) (t : Nat) (pc : Pc α) (ev : Event α := .none) : State α :=
  { s with th := s.th.set t pc, ev := ev }

/-- Thread `t` at program counter `pc` performs its next operation. -/
def stepPc (s : State α) (t : Nat) : Pc α → Option (State α)
  | .idle => none
  | .eStart x => some (s.setPc t (.eLoaded x s.enqPos))                                -- 92
  | .eLoaded x pos =>                                                                  -- 94-102
    if s.seq (s.cell pos) = pos then some (s.setPc t (.eReady x pos))
    else if s.seq (s.cell pos) < pos then some (s.setPc t .idle .enqFailed)
    else some (s.setPc t (.eStart x))
  | .eReady x pos =>                                                                   -- 98
    if s.enqPos = pos then
      some { s.setPc t (.eClaimed x pos) with enqPos := pos + 1, enq := s.enq ++ [x] }
    else some (s.setPc t (.eStart x))
  | .eClaimed x pos =>                                                                 -- 105
    some { s.setPc t (.eBuilt x pos) with val := Common.upd s.val (s.cell pos) (some x),
                                          bad := s.bad || (s.val (s.cell pos)).isSome }
  | .eBuilt _ pos =>                                                                   -- 106-107
    some { s.setPc t .idle .enqOk with seq := Common.upd s.seq (s.cell pos) (pos + 1) }
  | .dStart => some (s.setPc t (.dLoaded s.deqPos))                                    -- 115
  | .dLoaded pos =>                                                                    -- 117-124
    if s.seq (s.cell pos) = pos + 1 then some (s.setPc t (.dReady pos))
    else if s.seq (s.cell pos) < pos + 1 then some (s.setPc t .idle .deqFailed)
    else some (s.setPc t .dStart)
  | .dReady pos =>                                                                     -- 120
    if s.deqPos = pos then some { s.setPc t (.dClaimed pos) with deqPos := pos + 1 }
    else some (s.setPc t .dStart)
  | .dClaimed pos =>                                                                   -- 127-128
    match s.val (s.cell pos) with
    | some v => some (s.setPc t (.dMoved v pos))
    | none => some { s with bad := true, ev := .none }
  | .dMoved v pos =>                                                                   -- 129
    some { s.setPc t (.dDestroyed v pos) with val := Common.upd s.val (s.cell pos) none,
                                              bad := s.bad || (s.val (s.cell pos)).isNone }
  | .dDestroyed v pos =>                                                               -- 132-133
    some { s.setPc t .idle (.deqOk v) with
           seq := Common.upd s.seq (s.cell pos) (pos + s.mask + 1), got := s.got ++ [(pos, v)] }
  | .sStart => some (s.setPc t (.sLoaded s.deqPos))                                    -- 139
  | .sLoaded pos =>                                                                    -- 141-145
    if s.seq (s.cell pos) < pos + 1 then some (s.setPc t .idle .deqFailed)
    else some (s.setPc t (.sReady pos))
  | .sReady pos =>                                                                     -- 147-148
    match s.val (s.cell pos) with
    | some v => some (s.setPc t (.sMoved v pos))
    | none => some { s with bad := true, ev := .none }
  | .sMoved v pos =>                                                                   -- 149
    some { s.setPc t (.sDestroyed v pos) with val := Common.upd s.val (s.cell pos) none,
                                              bad := s.bad || (s.val (s.cell pos)).isNone }
  | .sDestroyed v pos => some { s.setPc t (.sStored v pos) with deqPos := pos + 1 }    -- 151
  | .sStored v pos =>                                                                  -- 154-155
    some { s.setPc t .idle (.deqOk v) with
           seq := Common.upd s.seq (s.cell pos) (pos + s.mask + 1), got := s.got ++ [(pos, v)] }

/-- One move. -/
def step (s : State α) : Act α → Option (State α)
  | .enqueue t x => match s.th[t]? with
    | some .idle => some (s.setPc t (.eStart x))
    | _ => none
  | .dequeue t => match s.th[t]? with
    | some .idle =>
      match s.sc with
      | none => some (s.setPc t .dStart)
      | some c => if c = t then some (s.setPc t .sStart) else none
    | _ => none
  | .go t => match s.th[t]? with
    | some pc => stepPc s t pc
    | none => none
  | .casFail t => match s.th[t]? with
    | some (.eReady x _) => some (s.setPc t (.eStart x))
    | some (.dReady _) => some (s.setPc t .dStart)
    | _ => none

/-- The constructor (45-56): the size is a power of two, at least 2; any number of idle threads. -/
def Init (s : State α) : Prop :=
  ∃ k n sc, 1 ≤ k ∧ s = { mask := 2 ^ k - 1, sc := sc, seq := fun i => i, th := List.replicate n .idle }

/-- `capacity` (158-160). -/
def State.cap (s : State α) : Nat := s.mask + 1

/-- `empty` (166-172), both loads at one instant. -/
def isEmpty (s : State α) : Bool := s.seq (s.cell s.deqPos) < s.deqPos + 1

/-- `is_full` (74-80), both loads at one instant. -/
def isFull (s : State α) : Bool := s.seq (s.cell s.enqPos) < s.enqPos

end Verif.Mpmc
