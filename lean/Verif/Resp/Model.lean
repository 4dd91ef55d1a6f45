/-!
# The RESP parser of the ping server: `/repo/examples/pingserver/resp_parser.{h,cc}`

Simplifications:
* A byte is a natural number. An argument (`absl::Span`) is a record of the bytes it was given and of the
  place it points to: nowhere (an empty span), the buffer passed to the `n`-th call of `Parse`, or a block
  of `cap` bytes allocated by the parser.
* Arrays do not nest in the code (`ConsumeArrayLen` refuses an array inside an array), so `ast_vec_` and
  `arr_stack_` have at most one element. `top_` is the cached vector when there is one, the result vector
  of the current call otherwise.
* Calls after an error are not modelled (the server closes the connection).
* `none` is undefined behaviour: a copy beyond the end of a block.
* `DCHECK`s are not modelled.
-/
namespace Verif.Resp

/-- `RespParser::Status` (resp_parser.h 17-24). -/
inductive Status
  | ok | more | badArray | badBulk | badString
deriving DecidableEq, Repr

/-- `RespParser::State` (resp_parser.h 60-68). -/
inductive PS
  | start | inline | arrayLen | parseArg | bulk | finishArg | complete
deriving DecidableEq, Repr

/-- Where an argument points. -/
inductive Place
  | nowhere
  | input (call : Nat)
  | block (cap : Nat)
deriving DecidableEq, Repr

structure Arg where
  data : List Nat
  place : Place
deriving DecidableEq, Repr

/-- The members of `RespParser` (resp_parser.h 70-83). `rem` is `arr_stack_`, `ast` is `ast_vec_`, `idx` is
`last_cached_index_`; `call` counts the calls of `Parse`. -/
structure S where
  st : PS := .start
  bulkLen : Nat := 0
  idx : Nat := 0
  rem : Option Nat := none
  ast : Option (List Arg) := none
  broken : Bool := false
  call : Nat := 0
deriving DecidableEq, Repr

/-- `kMaxArrayLen`, `kMaxBulkLen` (resp_parser.cc 17-18). -/
def maxArray : Nat := 1024
def maxBulk : Nat := 67108864

/-- `absl::ascii_isspace`. -/
def isSpace (b : Nat) : Bool := b == 32 || (9 ≤ b && b ≤ 13)

def isDigit (b : Nat) : Bool := 48 ≤ b && b ≤ 57

/-- The value of decimal digits. -/
def value (ds : List Nat) : Nat := ds.foldl (fun a d => 10 * a + (d - 48)) 0

/-- The digits of `absl::SimpleAtoi<int64_t>`: not empty, digits only, in range. -/
def atoiDigits (neg : Bool) (ds : List Nat) : Option Int :=
  if ds = [] ∨ ds.all isDigit = false then none
  else if neg then (if value ds ≤ 9223372036854775808 then some (-(value ds : Int)) else none)
  else (if value ds ≤ 9223372036854775807 then some (value ds : Int) else none)

/-- `absl::SimpleAtoi<int64_t>`: white space around the number is ignored, a sign is allowed. -/
def atoi (s : List Nat) : Option Int :=
  match ((s.dropWhile isSpace).reverse.dropWhile isSpace).reverse with
  | 45 :: ds => atoiDigits true ds
  | 43 :: ds => atoiDigits false ds
  | ds => atoiDigits false ds

/-- The bytes before the first line feed, if there is one (`memchr`). -/
def untilLF (s : List Nat) : Option (List Nat) :=
  if 10 ∈ s then some (s.takeWhile (· ≠ 10)) else none

inductive Num
  | more | invalid | ok (v : Int) (consumed : Nat)
deriving DecidableEq, Repr

/-- `ParseNum` (195-216). `body` is `s` up to the line feed; the byte before the line feed, which may be the
prefix byte `str[0]`, must be a carriage return. -/
def parseNum (str : List Nat) : Num :=
  if str.length < 4 then .more
  else
    match untilLF str.tail with
    | none => if str.length < 32 then .more else .invalid
    | some body =>
      if (str.take 1 ++ body).getLast? ≠ some 13 then .invalid
      else
        match atoi body.dropLast with
        | none => .invalid
        | some v => .ok v (body.length + 2)

/-- One step of the loop in `Parse`. `cur` is `*top_`. -/
structure L where
  s : S
  cur : List Arg
deriving DecidableEq, Repr

/-- `ConsumeArrayLen` (218-246): the status, the consumed bytes, the new state. -/
def arrayLen (l : L) (str : List Nat) : Status × Nat × L :=
  match parseNum str with
  | .more => (.more, 0, l)
  | .invalid => (.badArray, 0, l)
  | .ok v n =>
    if v < -1 ∨ v > (maxArray : Int) then (.badArray, n, l)
    else if l.s.rem.isSome then (.badString, n, l)
    else if l.cur ≠ [] then (.badString, n, l)
    else if v ≤ 0 then (.badArray, n, l)
    else (.ok, n, { l with s := { l.s with rem := some v.toNat, st := .parseArg } })

/-- `ParseArg` (248-275), with the length test of the caller (48-53). -/
def parseArg (l : L) (str : List Nat) : Status × Nat × L :=
  if str.length < 4 then (.more, 0, l)
  else if str.head? = some 36 then
    match parseNum str with
    | .more => (.more, 0, l)
    | .invalid => (.badArray, 0, l)
    | .ok v n =>
      if v < -1 ∨ v > (maxBulk : Int) then (.badArray, n, l)
      else if v < 0 then (.badBulk, n, l)
      else (.ok, n, { l with cur := l.cur ++ [⟨[], .nowhere⟩],
                             s := { l.s with bulkLen := v.toNat, st := .bulk } })
  else (.badBulk, 0, l)

/-- Append bytes behind the last argument, in place: `memcpy(bulk_str.end(), …)`. -/
def extend (a : Arg) (bs : List Nat) : Option Arg :=
  match a.place with
  | .block cap => if a.data.length + bs.length ≤ cap then some ⟨a.data ++ bs, .block cap⟩ else none
  | _ => none

/-- Replace the last argument. -/
def setLast (cur : List Arg) (a : Arg) : List Arg := cur.dropLast ++ [a]

/-- The last argument. -/
def lastArg (cur : List Arg) : Arg := cur.getLast?.getD ⟨[], .nowhere⟩

/-- `ConsumeBulk` (277-322). -/
def consumeBulk (l : L) (str : List Nat) : Option (Status × Nat × L) :=
  let n := l.s.bulkLen
  if str.length ≥ n + 2 then
    if str[n]? ≠ some 13 ∨ str[n + 1]? ≠ some 10 then some (.badString, 0, l)
    else
      let s' : S := { l.s with broken := false, st := .finishArg, bulkLen := 0 }
      if n = 0 then some (.ok, n + 2, ⟨s', l.cur⟩)
      else if l.s.broken then
        match extend (lastArg l.cur) (str.take n) with
        | none => none
        | some a => some (.ok, n + 2, ⟨s', setLast l.cur a⟩)
      else some (.ok, n + 2, ⟨s', setLast l.cur ⟨str.take n, .input l.s.call⟩⟩)
  else if str.length ≥ 32 then
    let len := min str.length n
    if l.s.broken then
      match extend (lastArg l.cur) (str.take len) with
      | none => none
      | some a => some (.more, len, ⟨{ l.s with bulkLen := n - len }, setLast l.cur a⟩)
    else
      some (.more, len, ⟨{ l.s with bulkLen := n - len, broken := true },
        setLast l.cur ⟨str.take len, .block n⟩⟩)
  else some (.more, 0, l)

/-- `HandleFinishArg` (324-341). -/
def finishArg (l : L) : L :=
  match l.s.rem with
  | none => l
  | some r =>
    if r - 1 ≠ 0 then { l with s := { l.s with rem := some (r - 1), st := .parseArg } }
    else { l with s := { l.s with rem := none, st := .complete } }

/-- `ExtendLastString` (343-356): a new block with the old and the new bytes. -/
def extendLast (cur : List Arg) (bs : List Nat) : List Arg :=
  setLast cur ⟨(lastArg cur).data ++ bs, .block ((lastArg cur).data.length + bs.length)⟩

/-- The token loop of `ParseInline` (166-182), from `ptr` on: the tokens added, and what is left when the
loop stops at a line feed or at the end. The fuel is the number of bytes left. -/
def tokens (call : Nat) : Nat → List Nat → List Arg → List Arg × List Nat
  | 0, rest, cur => (cur, rest)
  | fuel + 1, rest, cur =>
    let rest := rest.dropWhile (fun b => b != 10 && b ≤ 32)
    if rest = [] ∨ rest.head? = some 10 then (cur, rest)
    else
      tokens call fuel (rest.dropWhile (fun b => b > 32))
        (cur ++ [⟨rest.takeWhile (fun b => b > 32), .input call⟩])

/-- `ParseInline` (142-193). -/
def parseInline (l : L) (str : List Nat) : Status × Nat × L :=
  let rest := if l.s.broken then str.dropWhile (fun b => b > 32) else str
  let cur := if l.s.broken then extendLast l.cur (str.takeWhile (fun b => b > 32)) else l.cur
  let broken := if l.s.broken ∧ rest ≠ [] then false else l.s.broken
  let (cur, rest) := tokens l.s.call (rest.length + 1) rest cur
  if rest = [] then
    (.more, str.length,
      ⟨{ l.s with broken := if (str.getLast?.getD 0) > 32 then true else broken }, cur⟩)
  else
    (.ok, str.length - rest.length + 1, ⟨{ l.s with broken := broken, st := .complete }, cur⟩)

/-- One turn of the loop of `Parse` (42-64). -/
def turn (l : L) (str : List Nat) : Option (Status × Nat × L) :=
  match l.s.st with
  | .complete => some (.ok, 0, l)
  | .start => none
  | .finishArg => some (.ok, 0, finishArg l)
  | .arrayLen => some (arrayLen l str)
  | .parseArg => some (parseArg l str)
  | .inline => some (parseInline l str)
  | .bulk => consumeBulk l str

/-- The loop of `Parse` (41-72): the final status, the consumed bytes, the state. Every turn that leaves the
loop running consumes input or leaves `FINISH_ARG`, so the fuel given below is never used up. -/
def loop : Nat → L → List Nat → Nat → Option (Status × Nat × L)
  | 0, _, _, _ => none
  | fuel + 1, l, str, consumed =>
    if l.s.st = .complete then some (.ok, consumed, l)
    else
      match turn l str with
      | none => none
      | some (e, n, l) =>
        if e = .ok then loop fuel l (str.drop n) (consumed + n) else some (e, consumed + n, l)

/-- `InitStart` (88-109). -/
def initStart (s : S) (b : Nat) : S :=
  let s : S := { s with ast := none, rem := none, idx := 0 }
  if b = 36 ∨ b = 58 then { s with st := .parseArg, rem := some 1 }
  else if b = 42 then { s with st := .arrayLen }
  else { s with st := .inline }

/-- The copy that `CacheState` makes of one argument (126-132). -/
def cacheArg (a : Arg) : Arg := if a.data = [] then a else ⟨a.data, .block a.data.length⟩

/-- `CacheState` (111-140). -/
def cacheState (l : L) : S :=
  if l.cur = [] ∧ l.s.ast = none then { l.s with ast := none }
  else { l.s with
    ast := some (l.cur.take l.s.idx ++ (l.cur.drop l.s.idx).map cacheArg),
    idx := l.cur.length }

/-- What one call of `Parse` gives. -/
structure Out where
  status : Status
  consumed : Nat
  args : List Arg
  s : S
deriving DecidableEq, Repr

/-- The end of `Parse` (74-85). -/
def finish : Option (Status × Nat × L) → Option Out
  | none => none
  | some (.more, n, l) => some ⟨.more, n, [], cacheState l⟩
  | some (.ok, n, l) => some ⟨.ok, n, l.cur, l.s⟩
  | some (e, n, l) => some ⟨e, n, [], l.s⟩

/-- `Parse` (20-86). -/
def parse (s : S) (str : List Nat) : Option Out :=
  let s : S := { s with call := s.call + 1 }
  match str with
  | b :: _ :: _ =>
    let s := if s.st = .complete then { s with st := .start } else s
    let s := if s.st = .start then initStart s b else s
    let l : L := ⟨s, s.ast.getD []⟩
    finish (loop (2 * str.length + 4) l str 0)
  | _ => some ⟨.more, 0, [], s⟩

/-- What a connection sees. -/
inductive Res
  /-- a request with these arguments, the parser after it, and the input not consumed yet -/
  | request (args : List Arg) (s : S) (rest : List Nat)
  | waiting
  | refused (e : Status)
deriving DecidableEq, Repr

/-- The read loop of the server (ping_iouring_server.cc 92-134), up to the first request: the input buffer
holds the bytes not consumed yet, followed by the next packet. -/
def serve (s : S) (buf : List Nat) : List (List Nat) → Option Res
  | [] => some .waiting
  | p :: ps =>
    match parse s (buf ++ p) with
    | none => none
    | some ⟨.ok, n, args, s'⟩ => some (.request args s' ((buf ++ p).drop n))
    | some ⟨.more, n, _, s'⟩ => serve s' ((buf ++ p).drop n) ps
    | some ⟨e, _, _, _⟩ => some (.refused e)

/-- An argument can be read: it does not point into the buffer of an earlier call. -/
def valid (call : Nat) (a : Arg) : Bool :=
  match a.place with
  | .input c => c == call
  | _ => true

end Verif.Resp
