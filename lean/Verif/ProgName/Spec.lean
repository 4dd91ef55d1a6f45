import Verif.ProgName.Model
/-!
# What the kernel says about a running program
-/
namespace Verif.ProgName
open Verif.Text (Str lit)

/-- The target of `/proc/self/exe` of a program started from the file `path`; the kernel adds the words
when the file was deleted (or replaced) since. -/
def link (path : Str) (deleted : Bool) : Str := if deleted then path ++ lit " (deleted)" else path

/-- `name` is the last component of `path`. -/
def IsLast (path name : Str) : Prop := 47 ∉ name ∧ ∃ dir, path = dir ++ [47] ++ name

end Verif.ProgName
