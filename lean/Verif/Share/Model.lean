import Verif.Common.TS
/-!
# How one thread shares its time between NORMAL and BACKGROUND fibers

`Scheduler::Run`, `RunReadyFibersInternal` and the accounting of `Preempt`
(`/repo/util/fibers/detail/scheduler.cc` 203-266, 551-634). Times are readings of the cycle clock. The
clock moves by explicit `tick`s, so the fibers may run for any time between two preemption points.
Simplified: sums and products do not wrap at 2^64; a fiber has a fixed priority, and `HIGH` counts as
`NORMAL` (it shares its queue) except that it is queued at the front; a fiber that suspends, sleeps or
ends simply leaves the queues and may come back by `wake`; `Launch::dispatch` and `Migrate`, which
switch without `Preempt`, are not modelled here (see `Verif.Sched`).
-/
namespace Verif.Share

/-- `FiberPriority` (fiber_interface.h 32-36). -/
inductive Prio
  | normal | background | high
deriving DecidableEq, Repr

/-- `Scheduler::Config` (scheduler.h 31-36). -/
structure Config where
  budgetNormal : Nat
  budgetBackground : Nat
  sleepProb : Nat
  warrantPct : Nat
deriving DecidableEq, Repr

/-- What does not change during a run: the conversions of `CycleClock` (any functions), the priorities of
the fibers, the longest time `D` between two preemption points of a round, and the longest time `R` of a
`NORMAL` round. Fiber 0 is the dispatcher. -/
structure Par where
  fromUs : Nat → Nat
  toUs : Nat → Nat
  prio : Nat → Prio
  D : Nat
  R : Nat

/-- `kBaseSliceCycles` (scheduler.cc 553): 10 ms. -/
def Par.slice (p : Par) : Nat := p.fromUs 10000

/-- Where the dispatcher is: outside `Run`, or in a round of `RunReadyFibersInternal` of background
fibers (`bg`), called by `Run(BACKGROUND)` if `callBg`. -/
inductive Pc
  | out
  | round (callBg bg : Bool)
deriving DecidableEq, Repr

structure S where
  now : Nat
  cfg : Config
  pc : Pc
  /-- The running fiber. -/
  act : Nat
  /-- `ready_queue_[0]`, with the dispatcher as 0. -/
  rn : List Nat
  /-- `ready_queue_[1]`. -/
  rb : List Nat
  /-- The fibers that `Preempt` put to sleep, with the microseconds. -/
  sleeping : List (Nat × Nat)
  /-- `round_robin_run_` (scheduler.h 189-198). -/
  lastNormal : Nat
  start : Nat
  last : Nat
  took : Nat
  budget : Nat
  yields : Nat
  /-- `runtime_cycles_`. -/
  rtN : Nat
  rtB : Nat
  /-- What the last `Run` returned: `HAS_ACTIVE` or not. -/
  res : Bool
  /-- Bookkeeping of the model: the time `NORMAL` rounds took while background fibers were waiting, since
  the last background round began. -/
  waited : Nat
  /-- The time all `NORMAL` and all background rounds took, and how often `Run` restarted the count. -/
  totN : Nat
  totB : Nat
  resets : Nat
  /-- No background round of `Run(BACKGROUND)` and no change of the configuration so far. -/
  busy : Bool
deriving DecidableEq, Repr

/-- A scheduler just constructed. -/
def S.init (now : Nat) (cfg : Config) : S :=
  { now, cfg, pc := .out, act := 0, rn := [], rb := [], sleeping := [], lastNormal := 0, start := 0, last := 0,
    took := 0, budget := 0, yields := 0, rtN := 0, rtB := 0, res := false, waited := 0, totN := 0, totB := 0,
    resets := 0, busy := true }

/-- Lines 555-562: restart the count every 10 ms, or 50 ms if background fibers took most of it. -/
def resetCount (p : Par) (s : S) : S :=
  if s.rtN + s.rtB ≥ p.slice then
    if s.rtB ≤ s.rtN ∨ s.rtN + s.rtB ≥ 5 * p.slice then
      { s with rtN := 0, rtB := 0, resets := s.resets + 1 }
    else s
  else s

/-- The end of `Run` (line 579) with `HasReadyAtLeast` (scheduler.h 53-57). -/
def ret (callBg : Bool) (s : S) : S :=
  { s with pc := .out, res := !s.rn.isEmpty || (callBg && !s.rb.isEmpty) }

/-- Lines 601-614: take the first fiber of the queue and switch to it; the dispatcher queues itself only
in a `NORMAL` round. -/
def popSwitch (bg : Bool) (s : S) : S :=
  if bg then
    match s.rb with
    | [] => s
    | f :: l => { s with rb := l, act := f }
  else
    match s.rn with
    | [] => s
    | f :: l => { s with rn := l ++ [0], act := f }

/-- Lines 583-592, then the first turn of the loop. -/
def beginRound (p : Par) (callBg bg : Bool) (s : S) : S :=
  popSwitch bg { s with
    pc := .round callBg bg
    took := 0, start := s.now, last := s.now, yields := 0
    budget := p.fromUs ((if bg then s.cfg.budgetBackground else s.cfg.budgetNormal) / 1000)
    waited := if bg then 0 else s.waited
    busy := s.busy && !(callBg && bg) }

/-- Lines 570-576: may background fibers run although `NORMAL` ones are there? -/
def warranted (s : S) : Bool :=
  !s.rb.isEmpty && decide (s.rtN > 0) && decide (s.rtB ≤ (s.rtN + s.rtB) * s.cfg.warrantPct / 100)

/-- Lines 569-579, after the round of `Run(NORMAL)`. -/
def afterNormal (p : Par) (s : S) : S :=
  if warranted s then beginRound p false true s else ret false s

/-- Lines 629-631, the end of `RunReadyFibersInternal`. -/
def account (bg : Bool) (s : S) : S :=
  if bg then { s with rtB := s.rtB + s.took, totB := s.totB + s.took }
  else { s with
    rtN := s.rtN + s.took, totN := s.totN + s.took, lastNormal := s.last
    waited := if s.rb.isEmpty then 0 else s.waited + s.took }

/-- `Run` (lines 551-579) up to its first switch or its end. -/
def run (p : Par) (callBg : Bool) (s : S) : S :=
  let s := resetCount p s
  if callBg then
    if s.rb.isEmpty then ret true s else beginRound p true true s
  else
    if s.rn.isEmpty then afterNormal p s else beginRound p false false s

/-- Lines 616-626: does the loop of `RunReadyFibersInternal` end? -/
def stop (bg : Bool) (s : S) : Bool :=
  decide (s.took > s.budget) || (!bg && decide (s.yields > 0)) || (if bg then s.rb.isEmpty else s.rn.isEmpty)

/-- The dispatcher is back from `SwitchTo` in the loop of a round. -/
def back (p : Par) (callBg bg : Bool) (s : S) : S :=
  if stop bg s then
    let s := account bg s
    if bg then ret callBg s else afterNormal p s
  else popSwitch bg s

/-- Lines 220-222, at every preemption point. -/
def point (yield : Bool) (s : S) : S :=
  { s with last := s.now, yields := s.yields + (if yield then 1 else 0), took := s.now - s.start }

/-- `AddReady` (lines 268-287). -/
def addReady (p : Par) (f : Nat) (s : S) : S :=
  match p.prio f with
  | .background => { s with rb := s.rb ++ [f] }
  | _ => { s with rn := s.rn ++ [f] }

/-- The end of `Preempt` for the normal queue (lines 261-265). -/
def switchNext (s : S) : Option S :=
  match s.rn with
  | [] => none
  | f :: l => some { s with rn := l, act := f }

/-- `hungry` (line 231), with the reading of the clock at the preemption point before. -/
def hungry (s0 s : S) : Bool := decide (s.last - s0.last > s.budget)
/-- `likely_idle` (lines 233-234). -/
def likelyIdle (p : Par) (s : S) : Bool := decide (s.last - s.lastNormal > p.fromUs 5000)
/-- `should_yield` (line 236). -/
def shouldYield (s : S) : Bool := decide (s.last % 100 < s.cfg.sleepProb)

/-- The microseconds a background fiber sleeps when it yields (lines 241-245). -/
def sleepUs (p : Par) (s0 s : S) : Nat :=
  if likelyIdle p s && (hungry s0 s || shouldYield s) then min 1500 (p.toUs (s.last - s0.last)) else 0

/-- `Preempt(true)` of a background fiber that used up its budget (lines 240-255). -/
def bgYield (p : Par) (s0 s : S) : S :=
  if sleepUs p s0 s > 0 then { s with sleeping := s.sleeping ++ [(s.act, sleepUs p s0 s)], act := 0 }
  else { addReady p s.act s with act := 0 }

/-- `Preempt(true)`. -/
def yield (p : Par) (s0 : S) : Option S :=
  let s := point true s0
  if p.prio s.act = .background then
    if s.took < s.budget then some s else some (bgYield p s0 s)
  else switchNext (addReady p s.act s)

/-- `Preempt(false)`. -/
def suspend (p : Par) (s0 : S) : Option S :=
  let s := point false s0
  if p.prio s.act = .background then some { s with act := 0 } else switchNext s

/-- A fiber outside the queues becomes ready: `AddReady` of a new, woken or timed-out fiber. -/
def wake (p : Par) (f : Nat) (s : S) : S :=
  match p.prio f with
  | .background => { s with rb := s.rb ++ [f] }
  | .high => { s with rn := f :: s.rn }
  | .normal => { s with rn := s.rn ++ [f] }

inductive Act
  | tick (d : Nat)
  /-- The loop of the dispatcher calls `Run`. -/
  | run (callBg : Bool)
  /-- The dispatcher continues after `SwitchTo`. -/
  | back
  /-- The running fiber yields. -/
  | yield
  /-- The running fiber blocks, sleeps or ends. -/
  | suspend
  | wake (f : Nat)
  /-- `UpdateConfig` (lines 502-504). -/
  | config (c : Config)

/-- May the clock move that far? In a round there is a preemption point at least every `D` cycles, and a
`NORMAL` round takes at most `R`. -/
def tickOk (p : Par) (s : S) (d : Nat) : Bool :=
  match s.pc with
  | .out => true
  | .round _ bg => decide (s.now + d ≤ s.last + p.D) && (bg || decide (s.now + d ≤ s.start + p.R))

/-- One move. The loops of the proactors and of the dispatcher call `Run(BACKGROUND)` only after
`Run(NORMAL)` left no `NORMAL` fiber ready (the check of line 565). -/
def step (p : Par) (s : S) : Act → Option S
  | .tick d => if tickOk p s d then some { s with now := s.now + d } else none
  | .run callBg =>
    if s.pc = .out ∧ s.act = 0 ∧ (callBg = true → s.rn = []) then some (run p callBg s) else none
  | .back =>
    match s.pc with
    | .out => none
    | .round callBg bg => if s.act = 0 then some (back p callBg bg s) else none
  | .yield => if s.act ≠ 0 then yield p s else none
  | .suspend => if s.act ≠ 0 then suspend p s else none
  | .wake f =>
    if f ≠ 0 ∧ f ≠ s.act ∧ f ∉ s.rn ∧ f ∉ s.rb then some (wake p f { s with sleeping := s.sleeping.filter (·.1 ≠ f) })
    else none
  | .config c => some { s with cfg := c, busy := false }

end Verif.Share
