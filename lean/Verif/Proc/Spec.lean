import Verif.Text.Str
/-!
Key-value files.
-/
namespace Verif.Proc.Spec
open Verif.Text

/-- The lines of a file that end with LF. -/
def complete (file : Str) : List Str := (split 10 file).dropLast

/-- Key and value of a line, if it has the separator: the text before the first one, and the text after it without leading white
space. -/
def keyValue (sep : Byte) (l : Str) : Option (Str × Str) :=
  if sep ∈ l then some (l.takeWhile (· != sep), stripLeading ((l.dropWhile (· != sep)).drop 1)) else none

/-- The key-value lines of a file, without its first line if that is a header. -/
def pairs (sep : Byte) (skipHeader : Bool) (file : Str) : List (Str × Str) :=
  ((split 10 file).drop (if skipHeader then 1 else 0)).filterMap (keyValue sep)

end Verif.Proc.Spec
