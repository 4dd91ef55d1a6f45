import Verif.HttpSrv.Model
/-! Words used in the statements of C81, C82 and C83. -/
namespace Verif.HttpSrv
open Verif.Text

/-- What is asked of a parser of a stream: a request ends somewhere after its beginning, and bytes that follow change nothing about a
request or an error that was found. -/
structure Parser.Ok {Q : Type} (p : Parser Q) : Prop where
  pos : ∀ bs q n, p bs = .done q n → 0 < n ∧ n ≤ bs.length
  keep : ∀ bs cs q n, p bs = .done q n → p (bs ++ cs) = .done q n
  bad : ∀ bs cs e, p bs = .bad e → p (bs ++ cs) = .bad e
  nil : p [] = .more

/-- The requests in a stream of bytes, and how it ends: with the parser's error or not. -/
inductive Reads {Q : Type} (p : Parser Q) : List Nat → List Q → Option Nat → Prop
  | more {bs} : p bs = .more → Reads p bs [] none
  | bad {bs e} : p bs = .bad e → Reads p bs [] (some e)
  | next {bs q n qs r} : p bs = .done q n → Reads p (bs.drop n) qs r → Reads p bs (q :: qs) r

/-- The names that the server answers itself. -/
def builtin (s : Server) (path : Str) : Prop :=
  path = lit "/favicon.ico" ∨ path = lit "/" ∨ path = lit "/flagz" ∨ path = lit "/filez" ∨ path = lit "/profilez" ∨
  (s.metrics = true ∧ path = lit "/metrics")

/-- A canonical path has no dots. -/
def canonical (p : Path) : Prop := ∀ c ∈ p, c ≠ ".." ∧ c ≠ "."

end Verif.HttpSrv
