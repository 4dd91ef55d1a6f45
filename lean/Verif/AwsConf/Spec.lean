import Verif.AwsConf.Model
/-!
# The order of sources and the form of addresses

The words of property C130.
-/
namespace Verif.AwsConf

/-- The place of a source in the documented order (credentials_provider_chain.h 14-20). -/
def Src.rank : Src → Nat
  | .environment => 1
  | .profile => 2
  | .webIdentity => 3
  | .container => 4
  | .ec2 => 5

/-- The word "true", in small or capital letters. -/
def SaysTrue (s : Str) : Prop :=
  ∃ a b c d, s = [a, b, c, d] ∧ (a = 84 ∨ a = 116) ∧ (b = 82 ∨ b = 114) ∧ (c = 85 ∨ c = 117) ∧ (d = 69 ∨ d = 101)

/-- Is this source to be used at all? -/
def Enabled (e : Env) : Src → Prop
  | .container => e.relativeUri ≠ [] ∨ e.fullUri ≠ []
  | .ec2 => ¬ SaysTrue e.ec2Disabled
  | _ => True

/-- Credentials that can sign: both parts are there. -/
def Complete (c : Creds) : Prop := c.id ≠ [] ∧ c.secret ≠ []

/-- The bucket that a request names. -/
def Names (ps : List Param) (b : Str) : Prop :=
  ∃ pre post, ps = pre ++ (str "Bucket", some b) :: post ∧ ∀ q ∈ post, q.1 ≠ str "Bucket"

end Verif.AwsConf
