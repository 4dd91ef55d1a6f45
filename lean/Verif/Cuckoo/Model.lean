/-!
# Model of the cuckoo hash table

Sources: `base/cuckoo_map.h`, `base/cuckoo_map-internal.h` and `base/cuckoo_map.cc` (CuckooMapTable).

Simplifications, for the whole file:
* a key is a natural number (a 64-bit word) and so is a value (the bytes of the `value_size_` value);
* `buf_` is a function from a bucket and a slot to the slot's content; every bucket number used below
  is a hash taken modulo the bucket count, so no access leaves the array;
* `FromHash` (internal.h 166-177) computes a remainder through libdivide; the remainder is modelled;
* bucket numbers and dense ids are natural numbers (32-bit in the code: below 2^30 buckets they agree);
* floating point sizes (`bucket_count_ * growth_ + 1`, `size() * ratio`) are arbitrary functions;
* counters used only in log messages are left out.
-/
namespace Verif.Cuckoo

/-- internal.h 131-134: the key and the value at one index of a `Bucket`. -/
structure Slot where
  key : Nat
  val : Nat
deriving DecidableEq, Repr

/-- internal.h 256-257: `buf_`, by bucket and index. -/
abbrev Buf := Nat → Nat → Slot

/-- Writing one slot. -/
def put (f : Buf) (b i : Nat) (s : Slot) : Buf := fun b' i' => if b' = b ∧ i' = i then s else f b' i'

/-- internal.h 239-279: the fields of `CuckooMapTable`. The two halves of `tmp_value_` are `tmp0` and
`tmp1`; `half` tells which one `pending_ptr_` points to. `growth n` is what
`static_cast<BucketId>(n * growth_ + 1.0f)` evaluates to. -/
structure Table where
  cnt : Nat
  buf : Buf
  empty : Nat
  emptySet : Bool
  size : Nat
  pkey : Nat
  half : Bool
  tmp0 : Nat
  tmp1 : Nat
  rnd : Nat
  growth : Nat → Nat

/-- The value at `pending_ptr_`. -/
def Table.pval (t : Table) : Nat := if t.half then t.tmp1 else t.tmp0

/-- `memcpy(pending_ptr_, data, value_size_)`. -/
def setPVal (t : Table) (v : Nat) : Table := if t.half then { t with tmp1 := v } else { t with tmp0 := v }

/-- internal.h 18: kBucketLength. -/
def bucketLen : Nat := 4

/-- internal.h 19-20: kMask1 and kMask2. -/
def mask1 : Nat := 0xc949d7c7509e6557
def mask2 : Nat := 0x9ae16a3b2f90404f

/-- internal.h 179-185: hash1 and hash2. -/
def hash1 (n k : Nat) : Nat := (mask1 ^^^ k) % n
def hash2 (n k : Nat) : Nat := (mask2 ^^^ k) % n

/-- cuckoo_map.cc 185-198: HashToIdPair, the second bucket. -/
def id1 (n k : Nat) : Nat := if hash2 n k = hash1 n k then (hash2 n k + 1) % n else hash2 n k

/-- cuckoo_map.cc 185-198: HashToIdPair, the first bucket. -/
def id0 (n k : Nat) : Nat := hash1 n k

/-- cuckoo_map.cc 177-183: NextBucketId. -/
def nextBucket (n cur k : Nat) : Nat := if cur = id0 n k then id1 n k else id0 n k

/-- internal.h 147-149: ToDenseId. -/
def toDense (b i : Nat) : Nat := b * bucketLen + i

/-- internal.h 396-411: FromDenseId. -/
def fromDense (t : Table) (d : Nat) : Slot := t.buf (d / bucketLen) (d % bucketLen)

/-- cuckoo_map.cc 168-175: CheckEmpty, followed by `countr_zero` of its mask: the first empty index of
the bucket, if it has one. -/
def firstEmpty (t : Table) (b : Nat) : Option Nat :=
  (List.range bucketLen).find? (fun i => (t.buf b i).key == t.empty)

/-- cuckoo_map.cc 200-213: the loop over one bucket in FindInBucket (and in find). -/
def findIn (t : Table) (b k : Nat) : Option Nat :=
  (List.range bucketLen).find? (fun i => (t.buf b i).key == k)

/-- internal.h 373-394: find; `none` is npos. FindInBucket (cuckoo_map.cc 200-213) does the same. -/
def find (t : Table) (k : Nat) : Option Nat :=
  match findIn t (id0 t.cnt k) k with
  | some i => some (toDense (id0 t.cnt k) i)
  | none =>
    match findIn t (id1 t.cnt k) k with
    | some i => some (toDense (id1 t.cnt k) i)
    | none => none

/-- cuckoo_map.cc 253-258: InsertIntoBucket, into the index `i`. -/
def insertInto (t : Table) (b i : Nat) : Table := { t with buf := put t.buf b i ⟨t.pkey, t.pval⟩ }

/-- cuckoo_map.cc 260-270: SwapPending. The old value of the slot goes to the other half of
`tmp_value_`, which becomes the pending one. -/
def swapPending (t : Table) (b i : Nat) : Table :=
  let s := t.buf b i
  { t with
    pkey := s.key
    buf := put t.buf b i ⟨t.pkey, t.pval⟩
    tmp0 := if t.half then s.val else t.tmp0
    tmp1 := if t.half then t.tmp1 else s.val
    half := !t.half }

/-- cuckoo_map.cc 336-357: the shifting loop of RollPending; the first argument counts the shifts
left. The answer is `none` when the limit is reached. -/
def rollGo (startB startI : Nat) : Nat → Table → Nat → Nat → Table × Option Nat
  | 0, t, _, _ => (t, none)
  | j + 1, t, bid, si =>
    let t1 := swapPending t bid si
    let nb := nextBucket t1.cnt bid t1.pkey
    match firstEmpty t1 nb with
    | some e => (insertInto t1 nb e, some (toDense startB startI))
    | none =>
      let si1 := t1.rnd % bucketLen
      let si2 := if nb = startB ∧ si1 = startI then (si1 + 1) % bucketLen else si1
      rollGo startB startI j { t1 with rnd := t1.rnd + 1 } nb si2

/-- cuckoo_map.cc 305-360: RollPending, with the buckets of the pending key. -/
def roll (limit : Nat) (t : Table) (b0 b1 : Nat) : Table × Option Nat :=
  match firstEmpty t b0 with
  | some i => (insertInto t b0 i, some (toDense b0 i))
  | none =>
    match firstEmpty t b1 with
    | some i => (insertInto t b1 i, some (toDense b1 i))
    | none =>
      let b := if t.rnd % 2 = 1 then b1 else b0
      let i := (t.rnd + 1) % bucketLen
      rollGo b i limit { t with rnd := t.rnd + 2 } b i

/-- `absl::countr_zero`, for a positive number. -/
def ctz : Nat → Nat → Nat
  | 0, _ => 0
  | f + 1, n => if n % 2 = 1 then 0 else 1 + ctz f (n / 2)

/-- cuckoo_map.cc 431: the value SetBucketCount gives to `shifts_limit_`. -/
def shiftsLimit (n : Nat) : Nat := ctz 64 n * 2

/-- cuckoo_map.cc 26-29: the trial divisions of IsPrime. The 32-bit product `i * i` does not overflow
for the bucket counts considered. The first argument bounds the number of trials. -/
def primeLoop : Nat → Nat → Nat → Bool
  | 0, _, _ => true
  | f + 1, i, val =>
    if i * i ≤ val then (if val % i = 0 then false else primeLoop f (i + 2) val) else true

/-- cuckoo_map.cc 20-31: IsPrime. -/
def isPrime (val : Nat) : Bool :=
  if val < 4 then true
  else if val % 2 = 0 ∨ val % 3 = 0 then false
  else primeLoop val 5 val

/-- cuckoo_map.cc 46-50: the loop of GetPrimeNotLessThan. -/
def primeFrom : Nat → Nat → Option Nat
  | 0, _ => none
  | f + 1, v => if isPrime v then some v else primeFrom f (v + 2)

/-- cuckoo_map.cc 43-53: GetPrimeNotLessThan; `none` is the fatal error at its end. -/
def getPrime (v : Nat) : Option Nat :=
  let v' := if v % 2 = 0 then v + 1 else v
  primeFrom (v' + 1) v'

/-- cuckoo_map.cc 272-278, 439-444: DoAllocate and SetEmptyValues: every key is the empty key. -/
def allocate (t : Table) (n : Nat) : Table := { t with cnt := n, buf := fun _ _ => ⟨t.empty, 0⟩ }

/-- internal.h 58-61: Clear. -/
def clear (t : Table) : Table := { t with size := 0, buf := fun b i => ⟨t.empty, (t.buf b i).val⟩ }

/-- internal.h 38-43: SetEmptyKey; `none` is the failed CHECK. -/
def setEmptyKey (t : Table) (k : Nat) : Option Table :=
  if t.emptySet then none
  else some { t with empty := k, emptySet := true, buf := fun b i => ⟨k, (t.buf b i).val⟩ }

/-- The slots of a bucket array in the order CopyBuffer visits them. -/
def slotsOf (f : Buf) (n : Nat) : List Slot :=
  (List.range n).flatMap (fun b => (List.range bucketLen).map (f b))

/-- cuckoo_map.cc 415-420: making a slot the pending one and inserting it. -/
def copyOne (t : Table) (s : Slot) (limit : Nat) : Table × Option Nat :=
  let t1 := setPVal { t with pkey := s.key } s.val
  roll limit t1 (id0 t1.cnt s.key) (id1 t1.cnt s.key)

/-- cuckoo_map.cc 409-425 with the insertion function of Grow (393-398): CopyBuffer, which stops at
the first slot that cannot be inserted. -/
def copyAll (limit : Nat) : List Slot → Table → Table × Bool
  | [], t => (t, true)
  | s :: ss, t =>
    if s.key = t.empty then copyAll limit ss { t with pkey := s.key }
    else
      match copyOne t s limit with
      | (t1, some _) => copyAll limit ss t1
      | (t1, none) => (t1, false)

/-- cuckoo_map.cc 379-402: the loop of Grow; `none`: a failed CHECK, or no result after `f` turns. -/
def growLoop (old : List Slot) (low : Nat) : Nat → Table → Option Table
  | 0, _ => none
  | f + 1, t =>
    match getPrime (max (t.growth t.cnt) low) with
    | none => none
    | some n =>
      if t.cnt < n then
        match copyAll (shiftsLimit n * 2) old (allocate t n) with
        | (t1, true) => some t1
        | (t1, false) => growLoop old low f t1
      else none

/-- cuckoo_map.cc 363-407: Grow. -/
def grow (f : Nat) (t : Table) (low : Nat) : Option Table :=
  match growLoop (slotsOf t.buf t.cnt) low f t with
  | none => none
  | some t1 => some (setPVal { t1 with pkey := t.pkey } t.pval)

/-- cuckoo_map.cc 233-243: the loop of Insert; the answer also tells whether the table grew. -/
def insertLoop (gf : Nat) : Nat → Table → Bool → Option (Table × Nat × Bool)
  | 0, _, _ => none
  | f + 1, t, grew =>
    match roll (shiftsLimit t.cnt) t (id0 t.cnt t.pkey) (id1 t.cnt t.pkey) with
    | (t1, some d) => some (t1, d, grew)
    | (t1, none) =>
      match grow gf t1 0 with
      | none => none
      | some t2 => insertLoop gf f t2 true

/-- cuckoo_map.cc 215-251: Insert. `f` bounds the turns of the loops that grow the table. After growing
the dense id is looked up again; npos is `none`. -/
def insert (f : Nat) (t : Table) (k v : Nat) : Option ((Option Nat × Bool) × Table) :=
  match find t k with
  | some d => some ((some d, false), t)
  | none =>
    match insertLoop f f (setPVal { t with pkey := k } v) false with
    | none => none
    | some (t1, d, grew) =>
      let t2 := { t1 with size := t1.size + 1 }
      some ((if grew then find t2 k else some d, true), t2)

/-- internal.h 74-76: Capacity. -/
def capacity (t : Table) : Nat := t.cnt * bucketLen

/-- cuckoo_map.cc 280-292: Init, with the default growth `g0` (the factor 1.2). -/
def init (g0 : Nat → Nat) (t : Table) (want : Nat) : Option Table :=
  match getPrime want with
  | none => none
  | some n => some (allocate { t with growth := g0, half := false } n)

/-- cuckoo_map.cc 294-303: Reserve. -/
def reserve (f : Nat) (g0 : Nat → Nat) (t : Table) (c : Nat) : Option Table :=
  if c ≤ capacity t then some t
  else if t.size = 0 then init g0 t (c / bucketLen)
  else grow f t (c / bucketLen)

/-- cuckoo_map.cc 37: kMinBucketCount. -/
def minBuckets : Nat := 16

/-- cuckoo_map.cc 160-163: the constructor. The empty key is 0 until it is set. -/
def create (g0 : Nat → Nat) (c : Nat) : Option Table :=
  init g0 ⟨0, fun _ _ => ⟨0, 0⟩, 0, false, 0, 0, false, 0, 0, 0, g0⟩ (max minBuckets (c / bucketLen))

/-! ## Compaction -/

/-- cuckoo_map.cc 65-157: BucketState, its bits as fields. -/
structure BState where
  explored : Bool
  visited : Bool
  full : Bool
  kids : Nat → Bool

/-- cuckoo_map.cc 76-79: a new state. -/
def BState.init : BState := ⟨false, false, false, fun _ => false⟩

/-- cuckoo_map.cc 114-116: num_children. -/
def numKids (s : BState) : Nat := ((List.range bucketLen).filter s.kids).length

/-- cuckoo_map.cc 119-122: first_child; `none` when there is no child. -/
def firstKid (s : BState) : Option Nat := (List.range bucketLen).find? s.kids

/-- cuckoo_map.cc 130-132: remove_child. -/
def removeKid (s : BState) (i : Nat) : BState := { s with kids := fun j => if j = i then false else s.kids j }

/-- cuckoo_map.cc 85-88: set_explored. -/
def setExplored (s : BState) (mask : Nat → Bool) : BState :=
  { s with explored := true, kids := fun j => s.kids j || mask j }

/-- cuckoo_map.cc 140-142: unshiftable. -/
def unshiftable (s : BState) : Bool := s.explored && !s.visited && numKids s == 0

/-- cuckoo_map.cc 144-149: reset_but_preserve_unshiftable. -/
def resetState (s : BState) : BState :=
  if unshiftable s then ⟨true, false, true, fun _ => false⟩ else ⟨false, false, s.full, fun _ => false⟩

/-- `compaction_info_`. -/
abbrev Info := Nat → BState

/-- Writing the state of one bucket. -/
def setInfo (f : Info) (b : Nat) (s : BState) : Info := fun b' => if b' = b then s else f b'

/-- The answer of Explore. -/
inductive Explored where
  | found (t : Table) (info : Info)
  | no (info : Info)

/-- cuckoo_map.cc 625-661: the loop of Explore from the index at the head of the list. -/
def exploreGo (t : Table) (parent : Nat) : List Nat → Info → (Nat → Bool) → Explored
  | [], info, mask => .no (setInfo info parent (setExplored (info parent) mask))
  | k :: ks, info, mask =>
    let next := nextBucket t.cnt parent (t.buf parent k).key
    let ns := info next
    if ns.visited || unshiftable ns then exploreGo t parent ks info mask
    else if ns.full then
      exploreGo t parent ks (setInfo info next { ns with visited := true })
        (fun j => if j = k then true else mask j)
    else
      match firstEmpty t next with
      | some e =>
        let t1 := insertInto (swapPending t parent k) next e
        .found t1 (if (List.range bucketLen).any mask then
          setInfo info parent (setExplored (info parent) mask) else info)
      | none =>
        exploreGo t parent ks (setInfo info next { ns with full := true, visited := true })
          (fun j => if j = k then true else mask j)

/-- cuckoo_map.cc 621-669: Explore. -/
def explore (t : Table) (parent : Nat) (info : Info) : Explored :=
  exploreGo t parent (List.range bucketLen) info (fun _ => false)

/-- What ShiftExhaustive works on: the table, `compaction_info_`, `compaction_stack_` (its top first)
and `visited_count`. -/
structure Dfs where
  t : Table
  info : Info
  stack : List Nat
  vc : Nat

/-- One turn of the loop of ShiftExhaustive. -/
inductive Turn where
  | found (d : Dfs)
  | go (d : Dfs)
  | crash

/-- cuckoo_map.cc 531-581: the turn after the bucket `parent` has been explored. -/
def advance (bid startKey : Nat) (d : Dfs) (parent : Nat) (rest : List Nat) : Turn :=
  match firstKid (d.info parent) with
  | none =>
    if (d.info parent).visited then
      let st := { d.info parent with visited := false }
      if unshiftable st then
        .go { d with info := setInfo d.info parent st, stack := rest, vc := d.vc - 1 }
      else .crash
    else .crash
  | some c =>
    let t1 := swapPending d.t parent c
    if parent = bid ∧ t1.pkey = startKey then
      .go { d with t := t1, info := setInfo d.info parent (removeKid (d.info parent) c) }
    else
      let next := nextBucket t1.cnt parent t1.pkey
      if (d.info next).explored then
        .go { d with t := t1, info := setInfo d.info parent (removeKid (d.info parent) c) }
      else .go { d with t := t1, stack := next :: parent :: rest }

/-- cuckoo_map.cc 515-581: one turn of the loop of ShiftExhaustive, on a stack that is not empty. -/
def turn (bid startKey : Nat) (d : Dfs) (parent : Nat) (rest : List Nat) : Turn :=
  if (d.info parent).explored then advance bid startKey d parent rest
  else
    match explore d.t parent d.info with
    | .found t1 info1 => .found { d with t := t1, info := info1 }
    | .no info1 =>
      advance bid startKey { d with info := info1, vc := d.vc + numKids (info1 parent) } parent rest

/-- cuckoo_map.cc 598-608: the children of one bucket of the stack; `below` is the bucket under it. -/
def cleanKids (t : Table) (id : Nat) (below : Option Nat) : List Nat → Info → Info
  | [], info => info
  | c :: cs, info =>
    if (info id).kids c then
      let next := nextBucket t.cnt id (t.buf id c).key
      let info1 := setInfo info id (removeKid (info id) c)
      if below = some next then cleanKids t id below cs info1
      else cleanKids t id below cs (setInfo info1 next (resetState (info1 next)))
    else cleanKids t id below cs info

/-- cuckoo_map.cc 595-611: cleaning the buckets of the stack and their children, from the top. -/
def cleanStack (t : Table) : List Nat → Info → Info
  | [], info => info
  | id :: rest, info =>
    let info1 := cleanKids t id rest.head? (List.range bucketLen) info
    cleanStack t rest (setInfo info1 id (resetState (info1 id)))

/-- cuckoo_map.cc 588-617: the end of a successful ShiftExhaustive. -/
def cleanUp (d : Dfs) : Info :=
  if d.vc < d.t.cnt / 6 then cleanStack d.t d.stack d.info else fun b => resetState (d.info b)

/-- The outcome of ShiftExhaustive. -/
inductive Shift where
  | found (t : Table) (info : Info)
  | no (t : Table) (info : Info)
  | crash

/-- cuckoo_map.cc 515-618: the loop of ShiftExhaustive; `crash` is a failed CHECK, or no result after
`f` turns. -/
def shiftLoop (bid startKey : Nat) : Nat → Dfs → Shift
  | 0, _ => .crash
  | f + 1, d =>
    match d.stack with
    | [] => .no d.t d.info
    | parent :: rest =>
      match turn bid startKey d parent rest with
      | .found d1 => .found d1.t (cleanUp d1)
      | .go d1 => shiftLoop bid startKey f d1
      | .crash => .crash

/-- The number of turns given to the search; `shift_ok` shows that it is enough. -/
def shiftFuel (n : Nat) : Nat := 16 * n + 16

/-- cuckoo_map.cc 508-619: ShiftExhaustive. -/
def shiftExhaustive (t : Table) (info : Info) (bid : Nat) : Shift :=
  shiftLoop bid t.pkey (shiftFuel t.cnt)
    ⟨t, setInfo info bid { info bid with visited := true }, [bid], 1⟩

/-- cuckoo_map.cc 496-504: the loop of InsertProblematicKeys. -/
def problemLoop : List Slot → Table → Info → Option (Bool × Table)
  | [], t, _ => some (true, t)
  | s :: ss, t, info =>
    let t1 := setPVal { t with pkey := s.key } s.val
    match shiftExhaustive t1 info (id0 t1.cnt s.key) with
    | .found t2 info2 => problemLoop ss t2 info2
    | .no t2 _ => some (false, t2)
    | .crash => none

/-- cuckoo_map.cc 490-506: InsertProblematicKeys. -/
def insertProblematic (t : Table) (ps : List Slot) : Option (Bool × Table) :=
  problemLoop ps t (fun _ => BState.init)

/-- cuckoo_map.cc 409-425 with the insertion function of Compact (469-478): slots that cannot be
inserted (or the slots they displaced) are kept apart. -/
def copyKeep (limit : Nat) : List Slot → Table → List Slot → Table × List Slot
  | [], t, ps => (t, ps)
  | s :: ss, t, ps =>
    if s.key = t.empty then copyKeep limit ss { t with pkey := s.key } ps
    else
      match copyOne t s limit with
      | (t1, some _) => copyKeep limit ss t1 ps
      | (t1, none) => copyKeep limit ss t1 (ps ++ [⟨t1.pkey, t1.pval⟩])

/-- cuckoo_map.cc 461-486: the tries of Compact; the first argument counts the tries left. -/
def compactLoop (old : List Slot) : Nat → Table → Nat → Option (Bool × Table)
  | 0, t, _ => some (false, t)
  | k + 1, t, n =>
    let (t1, ps) := copyKeep (shiftsLimit n * 2) old (allocate t n) []
    match insertProblematic t1 ps with
    | none => none
    | some (true, t2) => some (true, t2)
    | some (false, t2) =>
      match getPrime (n + 2) with
      | none => none
      | some n' => compactLoop old k t2 n'

/-- cuckoo_map.cc 446-488: Compact; `want` is `size() * ratio`. -/
def compact (t : Table) (want : Nat) : Option (Bool × Table) :=
  if t.cnt < 128 then some (true, t)
  else
    match getPrime (max minBuckets (1 + want / bucketLen)) with
    | none => none
    | some n => compactLoop (slotsOf t.buf t.cnt) 10 t n

/-! ## Iteration -/

/-- internal.h 120-127: `Iterator::operator++`; the second component lists the ids whose key it read
(413-418). The first argument bounds the turns of the loop. -/
def iterNext (t : Table) : Nat → Nat → Nat × List Nat
  | 0, cur => (cur, [])
  | f + 1, cur =>
    if cur < capacity t then
      if (fromDense t (cur + 1)).key ≠ t.empty then (cur + 1, [cur + 1])
      else
        let r := iterNext t f (cur + 1)
        (r.1, (cur + 1) :: r.2)
    else (cur, [])

/-! ## Histories -/

/-- The calls a client makes. `compact r`: `r (size())` is `size() * ratio`. -/
inductive Op where
  | setEmpty (k : Nat)
  | insert (k v : Nat)
  | find (k : Nat)
  | reserve (c : Nat)
  | setGrowth (g : Nat → Nat)
  | clear
  | compact (r : Nat → Nat)
  | size

/-- What a client sees: for Insert, the slot at the returned id and whether the key is new; for find,
the slot at the returned id. -/
inductive Obs where
  | unit
  | inserted (s : Option Slot) (new : Bool)
  | found (s : Option Slot)
  | compacted (ok : Bool)
  | size (n : Nat)
deriving DecidableEq, Repr

/-- One call; `none`: a failed CHECK, a fatal error, or no result after `f` turns of a loop that grows
the table. -/
def step (g0 : Nat → Nat) (f : Nat) (t : Table) : Op → Option (Obs × Table)
  | .setEmpty k =>
    match setEmptyKey t k with
    | some t1 => some (.unit, t1)
    | none => none
  | .insert k v =>
    match insert f t k v with
    | some ((d, new), t1) => some (.inserted (d.map (fromDense t1)) new, t1)
    | none => none
  | .find k => some (.found ((find t k).map (fromDense t)), t)
  | .reserve c =>
    match reserve f g0 t c with
    | some t1 => some (.unit, t1)
    | none => none
  | .setGrowth g => some (.unit, { t with growth := g })
  | .clear => some (.unit, clear t)
  | .compact r =>
    match compact t (r t.size) with
    | some (ok, t1) => some (.compacted ok, t1)
    | none => none
  | .size => some (.size t.size, t)

end Verif.Cuckoo
