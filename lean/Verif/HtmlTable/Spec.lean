import Verif.HtmlTable.Model
/-!
# Cells without markup
-/
namespace Verif.HtmlTable
open Verif.Text

/-- No cell has a `<` in it. -/
def NoMarkup (cells : List Str) : Prop := ∀ c ∈ cells, (60 : Byte) ∉ c

end Verif.HtmlTable
