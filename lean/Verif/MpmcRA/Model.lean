import Verif.RelAcq.Lemmas
import Verif.Mpmc.Model
/-!
`base::mpmc_bounded_queue` (base/mpmc_bounded_queue.h) over the memory of C++ threads (`Verif.RelAcq`): any number of threads run
`try_enqueue` (87-108), `try_dequeue` (110-134) or, in the single-consumer configuration, `try_dequeue_sc` (138-156). The two positions and the
sequence numbers are atomic locations with the orders of the code, the storage of each cell is a non-atomic location whose construction, moving out
and destruction are accesses that may race. Program counters, storage and history are those of `Verif.Mpmc`, which has the same code
with sequentially consistent atomics. Simplifications as there.
-/
namespace Verif.MpmcRA
open Verif.Common Verif.RelAcq

/-- `enqueue_pos_`, `dequeue_pos_`, the sequence number and the storage of a cell (177-193). -/
inductive Loc
  | enq | deq | seq (i : Nat) | cell (i : Nat)
  deriving DecidableEq

/-- The memory orders: `sequence.load` with acquire in `try_enqueue` (94) and in the dequeue functions (117, 141), `sequence.store` with release in
`try_enqueue` (106) and in the dequeue functions (132, 154). The positions are accessed relaxed. -/
structure Cfg where
  eAcq : Bool
  dAcq : Bool
  eRel : Bool
  dRel : Bool

/-- The orders of the code. -/
def theCode : Cfg := ⟨true, true, true, true⟩

/-- `q`: program counters, storage and history. Its fields `seq`, `enqPos` and `deqPos` are history here: what was stored last by the code;
all loads read `m`. Also history: the message of each sequence number and of `dequeue_pos_` that was stored last. `race` is set by an access to
the storage of a cell that races with an earlier one. -/
structure State (α : Type) where
  q : Mpmc.State α
  m : Mem Loc
  top : Nat → Nat := fun _ => 0
  deqTop : Nat := 0
  race : Bool := false

/-- Thread `t` starts a call, goes on, or fails its weak compare-and-swap. `ts` is the message read or the place of the message stored. -/
inductive Act (α : Type)
  | enqueue (t : Nat) (x : α)
  | dequeue (t : Nat)
  | go (t ts : Nat)
  | casFail (t ts : Nat)

variable {α : Type}

/-- A load; `k` is what the thread does with the value. -/
def withLoad (s : State α) (t : Nat) (l : Loc) (a : Bool) (ts : Nat) (k : Nat → Mpmc.State α) : Option (State α) :=
  match s.m.load t l a ts with
  | none => none
  | some (v, m) => some { s with m := m, q := k v }

/-- A compare-and-swap of a position that succeeds (98, 120), relaxed. -/
def withCas (s : State α) (t : Nat) (l : Loc) (pos ts : Nat) (q : Mpmc.State α) (dt : Nat) : Option (State α) :=
  match s.m.cas t l pos (pos + 1) false false ts with
  | none => none
  | some m => some { s with m := m, q := q, deqTop := dt }

/-- An access to the storage of the cell of `pos`. -/
def withAccess (s : State α) (t pos : Nat) (r : Option (Mpmc.State α)) : Option (State α) :=
  match r with
  | none => none
  | some q => some { s with m := s.m.touch t (.cell (s.q.cell pos)), q := q, race := s.race || !s.m.clear t (.cell (s.q.cell pos)) }

/-- `cell->sequence.store(v, release)` (106, 132, 154). -/
def withStore (s : State α) (t pos v : Nat) (r : Bool) (ts : Nat) (o : Option (Mpmc.State α)) : Option (State α) :=
  match o with
  | none => none
  | some q =>
    match s.m.store t (.seq (s.q.cell pos)) v r ts with
    | none => none
    | some m => some { s with m := m, q := q, top := upd s.top (s.q.cell pos) ts }

/-- `dequeue_pos_.store(pos + 1, relaxed)` (151). -/
def withPos (s : State α) (t pos ts : Nat) (q : Mpmc.State α) : Option (State α) :=
  match s.m.store t .deq (pos + 1) false ts with
  | none => none
  | some m => some { s with m := m, q := q, deqTop := ts }

/-- Lines 95-102: `try_enqueue` has loaded the sequence number `v`. -/
def afterE (q : Mpmc.State α) (t : Nat) (x : α) (pos v : Nat) : Mpmc.State α :=
  if v = pos then q.setPc t (.eReady x pos)
  else if v < pos then q.setPc t .idle .enqFailed
  else q.setPc t (.eStart x)

/-- Lines 118-124. -/
def afterD (q : Mpmc.State α) (t pos v : Nat) : Mpmc.State α :=
  if v = pos + 1 then q.setPc t (.dReady pos)
  else if v < pos + 1 then q.setPc t .idle .deqFailed
  else q.setPc t .dStart

/-- Lines 142-145. -/
def afterS (q : Mpmc.State α) (t pos v : Nat) : Mpmc.State α :=
  if v < pos + 1 then q.setPc t .idle .deqFailed
  else q.setPc t (.sReady pos)

/-- Thread `t` at `pc` goes on. What `Mpmc.stepPc` does to the storage and to the history is the same here. -/
def stepPc (c : Cfg) (s : State α) (t ts : Nat) (pc : Mpmc.Pc α) : Option (State α) :=
  match pc with
  | .idle => none
  | .eStart x => withLoad s t .enq false ts (fun v => s.q.setPc t (.eLoaded x v))                                     -- 92
  | .eLoaded x pos => withLoad s t (.seq (s.q.cell pos)) c.eAcq ts (afterE s.q t x pos)                               -- 93-102
  | .eReady x pos =>                                                                                                 -- 98
    withCas s t .enq pos ts { s.q.setPc t (.eClaimed x pos) with enqPos := pos + 1, enq := s.q.enq ++ [x] } s.deqTop
  | .eClaimed _ pos => withAccess s t pos (Mpmc.stepPc s.q t pc)                                                      -- 105
  | .eBuilt _ pos => withStore s t pos (pos + 1) c.eRel ts (Mpmc.stepPc s.q t pc)                                     -- 106-107
  | .dStart => withLoad s t .deq false ts (fun v => s.q.setPc t (.dLoaded v))                                         -- 115
  | .dLoaded pos => withLoad s t (.seq (s.q.cell pos)) c.dAcq ts (afterD s.q t pos)                                   -- 116-124
  | .dReady pos => withCas s t .deq pos ts { s.q.setPc t (.dClaimed pos) with deqPos := pos + 1 } (ts + 1)            -- 120
  | .dClaimed pos => withAccess s t pos (Mpmc.stepPc s.q t pc)                                                        -- 127-128
  | .dMoved _ pos => withAccess s t pos (Mpmc.stepPc s.q t pc)                                                        -- 129
  | .dDestroyed _ pos => withStore s t pos (pos + s.q.mask + 1) c.dRel ts (Mpmc.stepPc s.q t pc)                      -- 132-133
  | .sStart => withLoad s t .deq false ts (fun v => s.q.setPc t (.sLoaded v))                                         -- 139
  | .sLoaded pos => withLoad s t (.seq (s.q.cell pos)) c.dAcq ts (afterS s.q t pos)                                   -- 140-145
  | .sReady pos => withAccess s t pos (Mpmc.stepPc s.q t pc)                                                          -- 147-148
  | .sMoved _ pos => withAccess s t pos (Mpmc.stepPc s.q t pc)                                                        -- 149
  | .sDestroyed v pos => withPos s t pos ts { s.q.setPc t (.sStored v pos) with deqPos := pos + 1 }                   -- 151
  | .sStored _ pos => withStore s t pos (pos + s.q.mask + 1) c.dRel ts (Mpmc.stepPc s.q t pc)                         -- 154-155

/-- One step. -/
def step (c : Cfg) (s : State α) : Act α → Option (State α)
  | .enqueue t x =>
    match Mpmc.step s.q (.enqueue t x) with
    | none => none
    | some q => some { s with q := q }
  | .dequeue t =>
    match Mpmc.step s.q (.dequeue t) with
    | none => none
    | some q => some { s with q := q }
  | .go t ts =>
    match s.q.th[t]? with
    | some pc => stepPc c s t ts pc
    | none => none
  | .casFail t ts =>                                                                                                  -- 98, 120
    match s.q.th[t]? with
    | some (.eReady x _) => withLoad s t .enq false ts (fun _ => s.q.setPc t (.eStart x))
    | some (.dReady _) => withLoad s t .deq false ts (fun _ => s.q.setPc t .dStart)
    | _ => none

/-- The values stored by the constructor (45-56). -/
def first : Loc → Nat
  | .seq i => i
  | _ => 0

/-- The constructor (45-56). Handing the queue to the threads happens before their calls. -/
def Init (s : State α) : Prop := ∃ q, Mpmc.Init q ∧ s = { q := q, m := Mem.start first }

end Verif.MpmcRA
