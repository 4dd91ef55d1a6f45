import Verif.AzureCreds.Model
/-! Words for the statements about Azure credentials. -/
namespace Verif.AzureCreds.Spec
open Verif.Text hiding Byte
open Verif.CloudSign

/-- Blanks only. -/
def Blank (s : Str) : Prop := ∀ x ∈ s, isSpace x = true

instance (s : Str) : Decidable (Blank s) := by unfold Blank; infer_instance

/-- No blanks at the ends. -/
def Trimmed (s : Str) : Prop := (∀ x, s.head? = some x → isSpace x = false) ∧ ∀ x, s.getLast? = some x → isSpace x = false

/-- A part of a connection string: blanks, or a name, `=` and a value with blanks around them. -/
inductive Part where
  | blank (b : Str)
  | setting (b1 name b2 b3 value b4 : Str)

def Part.text : Part → Str
  | .blank b => b
  | .setting b1 n b2 b3 v b4 => b1 ++ n ++ b2 ++ [61] ++ b3 ++ v ++ b4

/-- A name is not empty and has no `=`; neither a name nor a value has a `;`. A value may well have a `=`, as keys and signatures do. -/
def Part.Ok : Part → Prop
  | .blank b => Blank b
  | .setting b1 n b2 b3 v b4 => Blank b1 ∧ Blank b2 ∧ Blank b3 ∧ Blank b4 ∧ Trimmed n ∧ Trimmed v ∧ n ≠ [] ∧ 61 ∉ n ∧ 59 ∉ n ∧ 59 ∉ v

/-- A connection string as it is written. -/
def connText (ps : List Part) : Str := List.intercalate [59] (ps.map Part.text)

/-- The value of a setting: that of the first part of this name in whatever case, or nothing. -/
def setting : List Part → Str → Str
  | [], _ => []
  | .blank _ :: r, name => setting r name
  | .setting _ n _ _ v _ :: r, name => if lower n = lower name then v else setting r name

/-- The suffix of endpoints in a connection string: that of public Azure if none is set. -/
def suffixOf (ps : List Part) : Str := if setting ps (lit "EndpointSuffix") = [] then lit "core.windows.net" else setting ps (lit "EndpointSuffix")

/-- A port as it is written, if there is one. -/
def portText : Option Str → Str
  | some p => 58 :: p
  | none => []

/-- A URL as it is written. -/
def urlText (https : Bool) (host : Str) (port : Option Str) (segs : List Str) (slash : Bool) : Str :=
  (if https then lit "https://" else lit "http://") ++ host ++ portText port ++ segs.flatMap (47 :: ·) ++ if slash then [47] else []

/-- Host and port as they are written in a request: a standard port is left out. -/
def hostPort (https : Bool) (host : Str) (port : Option Str) : Str :=
  match port with
  | none => host
  | some p => if p = (if https then lit "443" else lit "80") then host else host ++ 58 :: p

/-- No credentials. -/
def Without (s : St) : Prop := s.mode = .none ∧ s.source = .none ∧ s.key = [] ∧ s.sas = []

/-- Exactly the secret of the mode is there. -/
def OneKind (s : St) : Prop :=
  (s.mode = .sharedKey ∧ s.key ≠ [] ∧ s.sas = [] ∧ s.token = []) ∨ (s.mode = .sas ∧ s.sas ≠ [] ∧ s.key = [] ∧ s.token = []) ∨ (s.mode = .bearer ∧ s.key = [] ∧ s.sas = [])

end Verif.AzureCreds.Spec
