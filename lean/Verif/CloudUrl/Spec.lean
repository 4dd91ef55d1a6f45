import Mathlib.Data.List.Forall2
import Verif.Text.Str
import Verif.Url.Spec
/-! What a server reads in the target of a request, and the encoding that AWS signatures prescribe; independently of the code. -/
namespace Verif.CloudUrl.Spec
open Verif.Text hiding Byte
open Verif.Url.Spec

/-- A query as it is written: `k=v&k=v`. -/
def query : List (Str × Str) → Str
  | [] => []
  | [a] => a.1 ++ 61 :: a.2
  | a :: b :: r => (a.1 ++ 61 :: a.2) ++ 38 :: query (b :: r)

/-- A target as it is written: `/s/s/s?k=v&k=v`. -/
def target (segs : List Str) (args : List (Str × Str)) : Str := segs.flatMap (47 :: ·) ++ (if args = [] then [] else 63 :: query args)

/-- The text of a segment has no `/`, `?` and `#`. -/
def SegText (s : Str) : Prop := 47 ∉ s ∧ 63 ∉ s ∧ 35 ∉ s

/-- The text of a name has no `=`, `&` and `#`, that of a value no `&` and `#`. -/
def ArgText (a : Str × Str) : Prop := (61 ∉ a.1 ∧ 38 ∉ a.1 ∧ 35 ∉ a.1) ∧ 38 ∉ a.2 ∧ 35 ∉ a.2

/-- Who splits the target `t` at its slashes and its query at `&` and `=`, and decodes each part, reads these segments and these arguments. -/
def Reads (t : Str) (segs : List Str) (args : List (Str × Str)) : Prop := ∃ rs ra, t = target rs ra ∧ (∀ s ∈ rs, SegText s) ∧ (∀ a ∈ ra, ArgText a) ∧
  List.Forall₂ Means rs segs ∧ List.Forall₂ (fun r a => Means r.1 a.1 ∧ Means r.2 a.2) ra args

/-- A text that stands for itself in a path: no `/`, `?`, `#` and `%`. -/
def Plain (s : Str) : Prop := 47 ∉ s ∧ 63 ∉ s ∧ 35 ∉ s ∧ 37 ∉ s

instance (s : Str) : Decidable (Plain s) := by unfold Plain; infer_instance

/-- AWS `UriEncode` leaves letters, digits and `-_.~` as they are, ... -/
def Unreserved (c : UInt8) : Prop := Alnum c ∨ c ∈ lit "-_.~"

instance (c : UInt8) : Decidable (Unreserved c) := by unfold Unreserved Alnum; infer_instance

/-- ... and writes every other byte as `%XY` with upper case digits, ... -/
def hexPair (c : UInt8) : Str := 37 :: [(lit "0123456789ABCDEF").getD (c.toNat / 16) 0, (lit "0123456789ABCDEF").getD (c.toNat % 16) 0]

/-- ... but for the slashes of a path. -/
def uriEncode (keepSlash : Bool) (s : Str) : Str := s.flatMap fun c => if Unreserved c ∨ (keepSlash = true ∧ c = 47) then [c] else hexPair c

end Verif.CloudUrl.Spec
