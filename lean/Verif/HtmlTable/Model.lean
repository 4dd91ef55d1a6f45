import Verif.Text.Str
/-!
# Model of `util::html::SortedTable`

util/html/sorted_table.cc:13-86. The text in front of the table (`HtmlStart`) and the pager behind it
do not depend on the contents; they are left out here, and a parameter of `table`.
-/
namespace Verif.HtmlTable
open Verif.Text

/-- util/html/sorted_table.cc:18-20, `THFormatter`. -/
def tag (t s : Str) : Str := lit "<" ++ t ++ lit ">" ++ s ++ lit "</" ++ t ++ lit ">"

/-- `absl::StrJoin(cells, "\n", THFormatter{t})`. -/
def join (t : Str) : List Str → Str
  | [] => []
  | [c] => tag t c
  | c :: d :: l => tag t c ++ lit "\n" ++ join t (d :: l)

/-- util/html/sorted_table.cc:51. -/
def colNames (header : List Str) : Str := lit "\n" ++ join (lit "th") header ++ lit "\n"

/-- util/html/sorted_table.cc:50-59, `StartTable`: what is appended. -/
def startTable (header : List Str) : Str :=
  lit "\n  <table class=\"tablesorter\" id=\"tablesorter\">\n    <thead class=\"thead-dark\"> <!-- add class=\"thead-light\" for a light header -->" ++
  (lit "<tr>" ++ colNames header ++ lit "</tr>" ++ lit "</thead><tfoot>\n") ++
  (lit "<tr>" ++ colNames header) ++
  lit "</tr> </tfoot>\n    <tbody>"

/-- util/html/sorted_table.cc:84-86, `Row`: what is appended. -/
def row (cells : List Str) : Str := lit "<tr>\n" ++ join (lit "td") cells ++ lit "</tr>\n"

/-- util/html/sorted_table.cc:61-82, `EndTable`: what is appended; `pager` is the text of lines 63-81. -/
def endTable (pager : Str) : Str := lit "</tbody></table>\n" ++ pager

/-- A page as util/http/http_main.cc:107-117 builds it, without `HtmlStart`: `StartTable`, a `Row` for
each row, `EndTable`. -/
def table (pager : Str) (header : List Str) (rows : List (List Str)) : Str :=
  startTable header ++ (rows.map row).flatten ++ endTable pager

end Verif.HtmlTable
