import Verif.CloudSign.Model
import Verif.CloudUrl.Props
/-! What the services demand of a signed request, after their documentation ("Create a signed AWS API request", "Authorize with Shared Key"); independently of the code. -/
namespace Verif.CloudSign.Spec
open Verif.Text hiding Byte
open Verif.Url.Spec Verif.CloudUrl Verif.CloudUrl.Spec

/-- Letters in lower case. -/
def low (s : Str) : Str := s.map fun c => if 65 ≤ c.toNat ∧ c.toNat ≤ 90 then c + 32 else c

/-- The headers of this name, given in lower case. -/
def hdrs (r : Req) (n : Str) : List (Str × Str) := r.headers.filter fun h => low h.1 = n

/-- The request has one header of this name, with this value. -/
def Header (r : Req) (n v : Str) : Prop := ∃ m, hdrs r n = [(m, v)]

/-- No two headers have the same name. -/
def Unique (r : Req) : Prop := ∀ n, (hdrs r n).length ≤ 1

/-- Every run of spaces becomes one space. -/
def collapse : Str → Str
  | [] => []
  | [c] => [c]
  | c :: d :: s => if c = 32 ∧ d = 32 then collapse (d :: s) else c :: collapse (d :: s)

/-- Ascending names, none twice. -/
def Ascending (l : List Str) : Prop := l.Pairwise fun a b => Before a b ∧ a ≠ b

/-- Names with semicolons between them. -/
def semicolons : List Str → Str
  | [] => []
  | [n] => n
  | n :: m :: l => n ++ lit ";" ++ semicolons (m :: l)

/-- Bytes in hexadecimal, in lower case. -/
def hex (s : Str) : Str := s.flatMap fun c => [(lit "0123456789abcdef").getD (c.toNat / 16) 0, (lit "0123456789abcdef").getD (c.toNat % 16) 0]

/-- The key that a secret gives for a day and a region. -/
def awsKey (hmac : Str → Str → Str) (secret date region : Str) : Str := hmac (hmac (hmac (hmac (lit "AWS4" ++ secret) date) region) (lit "s3")) (lit "aws4_request")

/-- What the client says about its signature. -/
structure Claim where
  id : Str
  date : Str
  names : List Str
  sig : Str

/-- The text of the claim. -/
def claimText (c : Claim) (region : Str) : Str :=
  lit "AWS4-HMAC-SHA256 Credential=" ++ c.id ++ lit "/" ++ c.date ++ lit "/" ++ region ++ lit "/s3/aws4_request, SignedHeaders=" ++ semicolons c.names ++ lit ", Signature=" ++ c.sig

/-- The canonical request for a path and arguments, and the signed headers. -/
def Canonical (r : Req) (path : Str) (args : List (Str × Str)) (names : List Str) (payload text : Str) : Prop :=
  ∃ (sorted : List (Str × Str)) (vals : List Str),
    sorted.Perm (args.map fun a => (uriEncode false a.1, uriEncode false a.2)) ∧ (sorted.Pairwise fun a b => a.1 ≠ b.1 ∧ Before a.1 b.1 ∨ a.1 = b.1 ∧ Before a.2 b.2) ∧
    List.Forall₂ (fun n v => ∃ raw t, Header r n raw ∧ Stripped raw t ∧ v = collapse t) names vals ∧
    text = r.method ++ lit "\n" ++ uriEncode true path ++ lit "\n" ++ query sorted ++ lit "\n" ++ (names.zip vals).flatMap (fun h => h.1 ++ lit ":" ++ h.2 ++ lit "\n") ++ lit "\n" ++ semicolons names ++ lit "\n" ++ payload

/-- A server of Amazon in this region, which reads this path and these arguments in the target, accepts the request. `keys` gives the secret and the session token of a key; the token is empty for permanent keys. -/
def AwsAccepts (hmac : Str → Str → Str) (sha : Str → Str) (keys : Str → Option (Str × Str)) (region path : Str) (args : List (Str × Str)) (r : Req) : Prop :=
  ∃ (c : Claim) (secret token time payload text : Str),
    Header r (lit "authorization") (claimText c region) ∧ keys c.id = some (secret, token) ∧
    Header r (lit "x-amz-date") time ∧ time.take 8 = c.date ∧ Header r (lit "x-amz-content-sha256") payload ∧
    (token ≠ [] ∧ Header r (lit "x-amz-security-token") token ∨ token = [] ∧ hdrs r (lit "x-amz-security-token") = []) ∧
    Ascending c.names ∧ lit "host" ∈ c.names ∧ (∀ h ∈ r.headers, (lit "x-amz-") <+: low h.1 → low h.1 ∈ c.names) ∧
    Canonical r path args c.names payload text ∧
    c.sig = hex (hmac (awsKey hmac secret c.date region) (lit "AWS4-HMAC-SHA256\n" ++ time ++ lit "\n" ++ c.date ++ lit "/" ++ region ++ lit "/s3/aws4_request\n" ++ hex (sha text)))

/-- The value of a header, empty if there is none. -/
def OptHeader (r : Req) (n v : Str) : Prop := v = [] ∧ hdrs r n = [] ∨ Header r n v

/-- The length is left out if it is zero. -/
def LengthText (r : Req) (v : Str) : Prop := OptHeader r (lit "content-length") v ∧ v ≠ lit "0" ∨ v = [] ∧ Header r (lit "content-length") (lit "0")

/-- A server of Azure accepts the request: `keys` gives the key of an account; the server reads this path and these arguments. -/
def AzureAccepts (hmac : Str → Str → Str) (b64 : Str → Str) (keys : Str → Option Str) (path : Str) (args : List (Str × Str)) (r : Req) : Prop :=
  ∃ (account key encoding language length md5 type ims im inm ius range : Str) (xs sorted : List (Str × Str)),
    keys account = some key ∧
    (OptHeader r (lit "content-encoding") encoding ∧ OptHeader r (lit "content-language") language ∧ LengthText r length ∧ OptHeader r (lit "content-md5") md5 ∧ OptHeader r (lit "content-type") type) ∧
    (OptHeader r (lit "if-modified-since") ims ∧ OptHeader r (lit "if-match") im ∧ OptHeader r (lit "if-none-match") inm ∧ OptHeader r (lit "if-unmodified-since") ius ∧ OptHeader r (lit "range") range) ∧
    (∃ t, Header r (lit "x-ms-date") t) ∧
    (Ascending (xs.map (·.1)) ∧ ∀ n v, (n, v) ∈ xs ↔ lit "x-ms-" <+: n ∧ ∃ raw, Header r n raw ∧ Stripped raw v) ∧
    (sorted.Perm (args.map fun a => (low a.1, a.2)) ∧ Ascending (sorted.map (·.1))) ∧
    Header r (lit "authorization") (lit "SharedKey " ++ account ++ lit ":" ++ b64 (hmac key (
      r.method ++ lit "\n" ++ encoding ++ lit "\n" ++ language ++ lit "\n" ++ length ++ lit "\n" ++ md5 ++ lit "\n" ++ type ++ lit "\n" ++ lit "\n" ++ ims ++ lit "\n" ++ im ++ lit "\n" ++ inm ++ lit "\n" ++ ius ++ lit "\n" ++ range ++ lit "\n" ++
      xs.flatMap (fun h => h.1 ++ lit ":" ++ h.2 ++ lit "\n") ++ lit "/" ++ account ++ path ++ sorted.flatMap (fun a => lit "\n" ++ a.1 ++ lit ":" ++ a.2))))

end Verif.CloudSign.Spec
