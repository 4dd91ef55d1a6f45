import Verif.Varz.Model
/-! What a JSON text is (RFC 8259), as far as it is needed here. -/
namespace Verif.Varz.Spec
open Verif.Text

/-- White space. -/
def Ws (s : Str) : Prop := ∀ c ∈ s, c ∈ [(32 : UInt8), 9, 10, 13]

/-- A digit. -/
def Digit (c : UInt8) : Prop := 48 ≤ c ∧ c ≤ 57

/-- A number: an optional minus sign, digits without a leading zero, an optional fraction, an optional exponent. -/
def Number (t : Str) : Prop := ∃ sign int frac exp, t = sign ++ int ++ frac ++ exp ∧ (sign = [] ∨ sign = [45]) ∧ (int ≠ [] ∧ (∀ c ∈ int, Digit c) ∧ (int.head? = some 48 → int = [48])) ∧
  (frac = [] ∨ ∃ ds, frac = 46 :: ds ∧ ds ≠ [] ∧ ∀ c ∈ ds, Digit c) ∧ (exp = [] ∨ ∃ e s ds, exp = e :: s ++ ds ∧ (e = 101 ∨ e = 69) ∧ (s = [] ∨ s = [43] ∨ s = [45]) ∧ ds ≠ [] ∧ ∀ c ∈ ds, Digit c)

/-- The number that a text of digits, after a minus sign or not, denotes. -/
def valueOf : Str → Int
  | [] => 0
  | c :: ds => if c = 45 then - (ds.foldl (fun a d => 10 * a + (d.toNat - 48 : Int)) 0) else (c :: ds).foldl (fun a d => 10 * a + (d.toNat - 48 : Int)) 0

/-- A character that stands for itself in a string: not a quote, a backslash or a control character. -/
def Plain (s : Str) : Prop := ∀ c ∈ s, c ≠ 34 ∧ c ≠ 92 ∧ 32 ≤ c

/-- A JSON value. -/
inductive J where
  | str (s : Str)
  | num (text : Str)
  | obj (m : List (Str × J))

mutual
/-- `Text v t`: the text `t` is written for the value `v`. Escapes in strings are left out, the client writes none. -/
inductive Text : J → Str → Prop
  | str {s} : Plain s → Text (.str s) (34 :: s ++ [34])
  | num {t} : Number t → Text (.num t) t
  | empty {w} : Ws w → Text (.obj []) (123 :: w ++ [125])
  | obj {m t} : Members m t → Text (.obj m) (123 :: t ++ [125])
/-- Members of an object: `"k": v` with commas between them. -/
inductive Members : List (Str × J) → Str → Prop
  | one {k v t w0 w1 w2} : Plain k → Text v t → Ws w0 → Ws w1 → Ws w2 → Members [(k, v)] (w0 ++ (34 :: k ++ [34]) ++ 58 :: w1 ++ t ++ w2)
  | cons {k v t w0 w1 w2 m r} : Plain k → Text v t → Ws w0 → Ws w1 → Ws w2 → Members m r → Members ((k, v) :: m) (w0 ++ (34 :: k ++ [34]) ++ 58 :: w1 ++ t ++ w2 ++ 44 :: r)
end

mutual
/-- The JSON value that a status variable stands for. -/
def ofValue : Value → J
  | .str s => .str s
  | .num n => .num (intText n)
  | .time n => .num (intText n)
  | .dbl t => .num t
  | .map m => .obj (ofPairs m)
/-- The members. -/
def ofPairs : KeyVals → List (Str × J)
  | .nil => []
  | .cons k v r => (k, ofValue v) :: ofPairs r
end

mutual
/-- All texts in the value stand for themselves, and all doubles are numbers. -/
def Safe : Value → Prop
  | .str s => Plain s
  | .num _ => True
  | .time _ => True
  | .dbl t => Number t
  | .map m => SafePairs m
/-- The same for the members of a map. -/
def SafePairs : KeyVals → Prop
  | .nil => True
  | .cons k v r => Plain k ∧ Safe v ∧ SafePairs r
end

end Verif.Varz.Spec
