import Verif.Text.Str
/-!
Model of `io::LineReader` (`io/line_reader.cc`).

The page buffer is represented by its unread part (from `next_` to `end_`, without the sentinel) and by whether the last read filled
the page. The source is the list of results its `ReadSome` gives; after them it is at its end.
-/
namespace Verif.Lines
open Verif.Text

/-- A result of `source_->ReadSome`. -/
inductive Rd
  | data (bs : Str)
  | err (e : Nat)
  deriving DecidableEq, Repr

/-- `std::error_code` of the reader. -/
inductive Status
  | ok
  | messageSize
  | source (e : Nat)
  deriving DecidableEq, Repr

/-- io/line_reader.h 83-96. `full`: `end_ == eof_page`. -/
structure LR where
  cur : Str
  full : Bool
  src : List Rd
  lineNum : Nat
  status : Status
  deriving DecidableEq, Repr

/-- io/line_reader.cc 33-40, `Init` -/
def init (src : List Rd) : LR := ⟨[], false, src, 0, .ok⟩

/-- io/line_reader.cc 65-68: the bytes of a found line, without the CR that ends it -/
def chop (l : Str) : Str := if l.getLast? = some 13 then l.dropLast else l

/-- io/line_reader.cc 62-80: the line ends at offset `i` of the unread bytes. -/
def found (r : LR) (scratch : Option Str) (i : Nat) : Option Str × LR :=
  (some (scratch.getD [] ++ chop (r.cur.take i)), { r with cur := r.cur.drop (i + 1), lineNum := r.lineNum + 1 })

/-- io/line_reader.cc 132-141: the end of the input -/
def atEnd (r : LR) (scratch : Option Str) : Option Str × LR :=
  match scratch with
  | some s => (some s, { r with lineNum := r.lineNum + 1 })
  | none => (none, r)

/-- What an iteration of the loop of `Next` decides before it reads. -/
inductive Scan
  | line (i : Nat)
  | tooLong
  | eof (s : Str)
  | read (scratch : Option Str)

/-- io/line_reader.cc 53-109: an iteration up to the read. `scratch` is `some` once `touched_scratch` is set. -/
def scan (limit : Nat) (scratch : Option Str) (cur : Str) (full : Bool) : Scan :=
  match find 10 cur with
  | some i => .line i
  | none =>
    if cur ≠ [] then
      if cur.length + (scratch.getD []).length ≥ limit then .tooLong
      else if !full then .eof (scratch.getD [] ++ cur)
      else .read (some (scratch.getD [] ++ cur))
    else .read scratch

/-- io/line_reader.cc 48-141, `Next`: the line, or `none` for `false`. The recursion is the `while` loop, which goes round once per
read. -/
def next (page limit : Nat) (scratch : Option Str) (cur : Str) (full : Bool) (ln : Nat) (st : Status) : List Rd → Option Str × LR
  | [] => match scan limit scratch cur full with
    | .line i => found ⟨cur, full, [], ln, st⟩ scratch i
    | .tooLong => (none, ⟨cur, full, [], ln, .messageSize⟩)
    | .eof s => atEnd ⟨[], full, [], ln, st⟩ (some s)
    | .read s => atEnd ⟨[], full, [], ln, st⟩ s
  | rd :: src => match scan limit scratch cur full with
    | .line i => found ⟨cur, full, rd :: src, ln, st⟩ scratch i
    | .tooLong => (none, ⟨cur, full, rd :: src, ln, .messageSize⟩)
    | .eof s => atEnd ⟨[], full, rd :: src, ln, st⟩ (some s)
    | .read s => match rd with
      | .err e => (none, ⟨[], full, src, ln, .source e⟩)
      | .data bs =>
        if bs.length = 0 then atEnd ⟨[], full, src, ln, st⟩ s
        else next page limit s bs (bs.length == page - 1) ln st src

/-- `Next` on a reader. -/
def LR.next (page limit : Nat) (r : LR) : Option Str × LR := Lines.next page limit none r.cur r.full r.lineNum r.status r.src

/-- The lines a caller gets by calling `Next` (or by iterating, io/line_reader.cc 19-30) until it returns false, and the reader left. -/
inductive Yields (page limit : Nat) : LR → List Str → LR → Prop
  | done {r r'} : r.next page limit = (none, r') → Yields page limit r [] r'
  | more {r r' r'' l ls} : r.next page limit = (some l, r') → Yields page limit r' ls r'' → Yields page limit r (l :: ls) r''

end Verif.Lines
