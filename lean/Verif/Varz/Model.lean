import Verif.Text.Str
import Verif.Common.TS
/-!
Model of the status variables: base/varz_node.cc, base/varz_node.h, base/varz_value.h, and of the JSON form of the status page: util/http/status_page.cc.

The registry is a list of nodes linked by pointers. A node is known by its address; `none` in the heap is memory that is not a node (any more). Creating, destroying and iterating hold a lock (C37 models it), so each is one step.
-/
namespace Verif.Varz
open Verif.Text Verif.Common

/-- varz_node.h 44-45: `next_` and `prev_`; and `name_`, which may be a null pointer. -/
structure Node where
  name : Option Str
  next : Option Nat
  prev : Option Nat
deriving DecidableEq, Repr

/-- The memory and `global_list()`. -/
structure Heap where
  mem : Nat → Option Node
  head : Option Nat

/-- varz_node.cc 16-24: the constructor, of a node at an address where there is none. `none` is undefined behaviour. -/
def create (h : Heap) (a : Nat) (name : Option Str) : Option Heap :=
  match h.head with
  | none => some ⟨upd h.mem a (some ⟨name, none, none⟩), some a⟩
  | some b =>
    match h.mem b with
    | none => none
    | some n => some ⟨upd (upd h.mem b (some { n with prev := some a })) a (some ⟨name, some b, none⟩), some a⟩

/-- varz_node.cc 31-33: `next_->prev_ = prev_` if there is a next node. -/
def setPrev (m : Nat → Option Node) (p : Option Nat) (v : Option Nat) : Option (Nat → Option Node) :=
  match p with
  | none => some m
  | some b => (m b).map fun n => upd m b (some { n with prev := v })

/-- varz_node.cc 34-36: `prev_->next_ = next_` if there is a previous node. -/
def setNext (m : Nat → Option Node) (p : Option Nat) (v : Option Nat) : Option (Nat → Option Node) :=
  match p with
  | none => some m
  | some b => (m b).map fun n => upd m b (some { n with next := v })

/-- varz_node.cc 26-38: the destructor. -/
def destroy (h : Heap) (a : Nat) : Option Heap :=
  match h.mem a with
  | none => none
  | some n =>
    if h.head = some a then some ⟨upd h.mem a none, n.next⟩
    else (setPrev h.mem n.next n.prev).bind fun m => (setNext m n.prev n.next).map fun m => ⟨upd m a none, h.head⟩

/-- varz_node.cc 68-76 `Iterate`: the nodes with a name, in the order in which the callback sees them. The loop ends at a null pointer; `fuel` bounds the model of it and `none` is undefined behaviour or a loop that is longer. -/
def iterate (mem : Nat → Option Node) : Nat → Option Nat → Option (List (Nat × Str))
  | _, none => some []
  | 0, some _ => none
  | fuel + 1, some a =>
    match mem a with
    | none => none
    | some n => (iterate mem fuel n.next).map fun r => match n.name with
      | some s => (a, s) :: r
      | none => r

mutual
/-- varz_value.h 14-52 `VarzValue`. The text of a double is what `StrAppend` prints for it. -/
inductive Value where
  | str (s : Str)
  | num (n : Int)
  | time (n : Int)
  | dbl (text : Str)
  | map (m : KeyVals)
/-- varz_value.h 16 `Map` -/
inductive KeyVals where
  | nil
  | cons (k : Str) (v : Value) (r : KeyVals)
end

/-- Digits of a number. -/
def digits (n : Nat) : Str := if n < 10 then [48 + n.toUInt8] else digits (n / 10) ++ [48 + (n % 10).toUInt8]

/-- `StrAppend` of a signed number. -/
def intText (n : Int) : Str := if n < 0 then 45 :: digits n.natAbs else digits n.natAbs

/-- `result.back() = c` -/
def setBack (s : Str) (c : UInt8) : Str := s.dropLast ++ [c]

mutual
/-- varz_node.cc 40-65 `Format` -/
def format : Value → Str
  | .str s => 34 :: s ++ [34]
  | .num n => intText n
  | .time n => intText n
  | .dbl t => t
  | .map m => setBack (lit "{ " ++ formatPairs m) 32 ++ lit "}"
/-- varz_node.cc 58-60 -/
def formatPairs : KeyVals → Str
  | .nil => []
  | .cons k v r => 34 :: k ++ lit "\": " ++ format v ++ lit "," ++ formatPairs r
end

/-- status_page.cc 46-50, 59-62: the page for `?o=json` for these variables, in the order of the iteration, at this time. -/
def statusJson (vars : List (Str × Value)) (now : Int) : Str :=
  let varz := vars.flatMap (fun p => 34 :: p.1 ++ lit "\": " ++ format p.2 ++ lit ",\n") ++ (lit "\"current-time\": " ++ intText now ++ lit ",\n")
  lit "{" ++ varz.take (varz.length - 2) ++ lit "}\n"

end Verif.Varz
