import Verif.Text.Str
/-!
What the text formats mean, independently of the parsers.
-/
namespace Verif.Text.Spec

/-- Text of a line before its first `=`, and after it (empty when there is none). -/
def beforeEq (l : Str) : Str := l.takeWhile (· != 61)
def afterEq (l : Str) : Str := (l.dropWhile (· != 61)).drop 1

/-- The key and the value of a `key = value` line. -/
def keyVal (l : Str) : Str × Str := (strip (beforeEq l), strip (afterEq l))

/-- `l`, already stripped, is a section header / carries data. -/
def isHeader (l : Str) : Bool := l.head? == some 91
def isData (l : Str) : Bool := l ≠ [] && l.head? ≠ some 35 && l.head? ≠ some 59 && l.head? ≠ some 91

/-- Line `i` belongs to section `sect`: the last header before it is `[sect]`. The empty name stands for the whole file. -/
def inSection (lines : List Str) (sect : Str) (i : Nat) : Bool :=
  sect = [] || (((lines.take i).map strip).filter isHeader).getLast? = some ([91] ++ sect ++ [93])

/-- The entries of a section: one for each data line in it, in order. -/
def entries (lines : List Str) (sect : Str) : List (Str × Str) :=
  (List.range lines.length).filterMap fun i =>
    match lines[i]? with
    | none => none
    | some l => if inSection lines sect i && isData (strip l) then some (keyVal (strip l)) else none

/-! ini files with trailing comments -/

/-- A line without its comment and surrounding white space. -/
def body (l : Str) : Str := strip (l.takeWhile fun c => c != 59 && c != 35)

/-- The section a line opens. -/
def headerName (l : Str) : Option Str :=
  if (body l).head? = some 91 ∧ (body l).getLast? = some 93 then some (strip ((body l).drop 1).dropLast) else none

/-- The key and value a line assigns. -/
def kvOf (l : Str) : Option (Str × Str) :=
  if headerName l = none ∧ 61 ∈ body l then some (keyVal (body l)) else none

/-- The section line `i` belongs to: the last one opened before, the nameless one at the start of the file. -/
def sectionAt (lines : List Str) (i : Nat) : Str := (((lines.take i).filterMap headerName).getLast?).getD []

/-- The assignments of the file: section, key and value, in order. -/
def assigns (lines : List Str) : List (Str × Str × Str) :=
  (List.range lines.length).filterMap fun i =>
    match lines[i]? with
    | none => none
    | some l => (kvOf l).map fun kv => (sectionAt lines i, kv.1, kv.2)

/-- The value a file gives to a key of a section: the last one assigned. -/
def valueOf (lines : List Str) (sect key : Str) : Option Str :=
  ((assigns lines).reverse.find? fun a => a.1 = sect && a.2.1 = key).map (·.2.2)

end Verif.Text.Spec
