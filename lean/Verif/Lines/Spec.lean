import Verif.Text.Str
/-!
The lines of a text.
-/
namespace Verif.Lines.Spec
open Verif.Text

/-- A line without the CR at its end. -/
def noCr (l : Str) : Str := if l.getLast? = some 13 then l.dropLast else l

/-- The lines of a text: it is cut at every LF; a CR before the LF does not belong to the line; what follows the last LF is a line
too, unless it is empty. -/
def linesOf : List Str → List Str
  | [] => []
  | [l] => if l = [] then [] else [l]
  | l :: ls => noCr l :: linesOf ls

def lines (text : Str) : List Str := linesOf (split 10 text)

end Verif.Lines.Spec
