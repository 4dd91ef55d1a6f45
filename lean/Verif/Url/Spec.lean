import Verif.Url.Model
/-!
Percent-encoding, independently of the code.
-/
namespace Verif.Url.Spec

/-- `c` is a hexadecimal digit of value `v`. -/
def Hex (c : UInt8) (v : Nat) : Prop :=
  v < 16 ∧ (c.toNat = 48 + v ∧ v < 10 ∨ c.toNat = 55 + v ∧ 10 ≤ v ∨ c.toNat = 87 + v ∧ 10 ≤ v)

/-- `c` is an upper case hexadecimal digit of value `v`. -/
def HexUpper (c : UInt8) (v : Nat) : Prop :=
  v < 16 ∧ (c.toNat = 48 + v ∧ v < 10 ∨ c.toNat = 55 + v ∧ 10 ≤ v)

/-- `Means e s`: the encoded text `e` stands for the bytes `s`: every character but `%` stands for itself, `%XY` for the byte
with hexadecimal value `XY`. -/
inductive Means : List UInt8 → List UInt8 → Prop
  | nil : Means [] []
  | lit {c e s} : c ≠ 37 → Means e s → Means (c :: e) (c :: s)
  | esc {a b x y c e s} : Hex a x → Hex b y → c.toNat = 16 * x + y → Means e s → Means (37 :: a :: b :: e) (c :: s)

/-- An ASCII letter or digit. -/
def Alnum (c : UInt8) : Prop :=
  (48 ≤ c.toNat ∧ c.toNat ≤ 57) ∨ (65 ≤ c.toNat ∧ c.toNat ≤ 90) ∨ (97 ≤ c.toNat ∧ c.toNat ≤ 122)

/-- `UrlText safe e`: `e` consists of `safe` characters and upper case `%XY` escapes of characters that are not safe. -/
inductive UrlText (safe : UInt8 → Prop) : List UInt8 → Prop
  | nil : UrlText safe []
  | lit {c e} : safe c → UrlText safe e → UrlText safe (c :: e)
  | esc {a b x y c e} : HexUpper a x → HexUpper b y → c.toNat = 16 * x + y → ¬ safe c → UrlText safe e →
      UrlText safe (37 :: a :: b :: e)

/-- Safe characters of `strings::AppendUrlEncoded`. -/
def Safe (c : UInt8) : Prop := Alnum c ∨ c ∈ "-_.!~*()".toList.map (fun ch => ch.toNat.toUInt8)

/-- Safe characters of `util::http::UrlEncode`. -/
def SafeHttp (c : UInt8) : Prop := Alnum c ∨ c ∈ "-_.!'()".toList.map (fun ch => ch.toNat.toUInt8)

end Verif.Url.Spec
