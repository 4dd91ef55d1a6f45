import Mathlib.Data.List.Forall2
import Verif.Zstd.Model
/-! What the decompression library promises. -/
namespace Verif.Zstd.Spec

/-- `sem d i`: the output that the decoder in state `d` makes in all from the input `i`. `complete d i`: `i` ends where a frame ends.
* A step takes no more than it has, makes no more than it has room for, and takes all if there is room left.
* What it makes and what it will make is what it would have made.
* At the end of a frame there is nothing left to make: the library does not take the last byte of a frame before it has put out all of it.
* There is no error in complete input. -/
structure Contract {S : Type} (dec : Decoder S) (sem : S → Str → Str) (complete : S → Str → Prop) : Prop where
  bounds : ∀ {d i cap d' c p}, dec d i cap = some (d', c, p) → c ≤ i.length ∧ p.length ≤ cap ∧ (p.length < cap → c = i.length)
  output : ∀ {d i cap d' c p}, dec d i cap = some (d', c, p) → ∀ more, sem d (i ++ more) = p ++ sem d' (i.drop c ++ more)
  rest : ∀ {d i cap d' c p more}, dec d i cap = some (d', c, p) → complete d (i ++ more) → complete d' (i.drop c ++ more)
  ended : ∀ {d}, complete d [] → sem d [] = []
  fine : ∀ {d i cap more}, complete d (i ++ more) → dec d i cap ≠ none

/-- The bytes that are still to come from upstream. -/
def coming (up : List (Option Str)) : Str := up.flatMap fun r => r.getD []

/-- The upstream source does not fail, and reports the end of the stream only when there is nothing more. -/
def Upstream (up : List (Option Str)) : Prop := ∀ r ∈ up, ∃ b, r = some b ∧ b ≠ []

end Verif.Zstd.Spec
