import Verif.CloudUrl.Model
/-!
Model of the signing of cloud requests: `AwsCredsProvider::Sign` (util/cloud/aws/aws_creds_provider.cc 588-670), `Credentials::Sign` of Azure (util/cloud/azure/azure.cc 66-126, 194-213, 527-558) and of Google
(util/cloud/gcp/gcs.cc 312-314). The hash functions of OpenSSL and the base64 functions of Abseil are parameters.
-/
namespace Verif.CloudSign
open Verif.Text hiding Byte
open Verif.Url Verif.CloudUrl

/-- `absl::ascii_tolower` -/
def lowerByte (c : UInt8) : UInt8 := if 65 ≤ c ∧ c ≤ 90 then c + 32 else c

/-- `absl::AsciiStrToLower` -/
def lower (s : Str) : Str := s.map lowerByte

/-- A request: its method, its target and its headers in order. Names of headers are compared without case by the HTTP library. -/
structure Req where
  method : Str
  target : Str
  headers : List (Str × Str)
deriving DecidableEq, Repr

/-- util/cloud/utils.h 55-62 `SetHeader`: `fields::set` of the HTTP library removes all headers of that name and adds one at the end. -/
def setHeader (n v : Str) (r : Req) : Req := { r with headers := r.headers.filter (fun h => lower h.1 ≠ lower n) ++ [(n, v)] }

/-- `fields::find` of the HTTP library. -/
def getHeader (r : Req) (n : Str) : Option Str := (r.headers.find? fun h => lower h.1 = lower n).map (·.2)

/-! ### Amazon -/

/-- aws_creds_provider.h 18-22 -/
structure Creds where
  id : Str
  secret : Str
  token : Str
deriving DecidableEq, Repr

/-- aws_creds_provider.cc 39-40 -/
def emptyBodyHash : Str := lit "e3b0c44298fc1c149afbf4c8996fb92427ae41e4649b934ca495991b7852b855"

/-- aws_creds_provider.cc 44-53 `HexEncode` -/
def hexEncode (s : Str) : Str := s.flatMap fun c => [(lit "0123456789abcdef").getD (c.toNat / 16) 0, (lit "0123456789abcdef").getD (c.toNat % 16) 0]

/-- aws_creds_provider.cc 600-605 -/
def payloadHash (r : Req) : Str := (getHeader r (lit "x-amz-content-sha256")).getD emptyBodyHash

/-- aws_creds_provider.cc 607-611 -/
def withAmzHeaders (c : Creds) (datetime : Str) (r : Req) : Req :=
  let r := setHeader (lit "x-amz-content-sha256") (payloadHash r) (setHeader (lit "x-amz-date") datetime r)
  if c.token ≠ [] then setHeader (lit "x-amz-security-token") c.token r else r

/-- aws_creds_provider.cc 616-617: which headers are signed, by their name in lower case. -/
def isSigned (name : Str) : Bool := name == lit "host" || name == lit "x-amz-date" || name == lit "x-amz-security-token" || (lit "x-amz-").isPrefixOf name

/-- aws_creds_provider.cc 612-622 -/
def signedHeaders (r : Req) : List (Str × Str) := ((r.headers.filter fun h => isSigned (lower h.1)).map fun h => (lower h.1, strip h.2)).mergeSort argLe

/-- aws_creds_provider.cc 624-633: the text of the headers. -/
def canonicalHeaders (hs : List (Str × Str)) : Str := hs.flatMap fun h => h.1 ++ lit ":" ++ h.2 ++ lit "\n"

/-- aws_creds_provider.cc 624-633: their names. The separator is added when there is text before it. -/
def signedNames (hs : List (Str × Str)) : Str := hs.foldl (fun s h => (if s = [] then s else s ++ lit ";") ++ h.1) []

/-- aws_creds_provider.cc 635-646 -/
def canonicalRequest (r : Req) (hs : List (Str × Str)) (payload : Str) : Option Str :=
  (signedPath r.target).map fun uri =>
    r.method ++ lit "\n" ++ uri ++ lit "\n" ++ signedQuery r.target ++ lit "\n" ++ canonicalHeaders hs ++ lit "\n" ++ signedNames hs ++ lit "\n" ++ payload

/-- aws_creds_provider.cc 649 -/
def scope (date region : Str) : Str := date ++ lit "/" ++ region ++ lit "/s3/aws4_request"

/-- aws_creds_provider.cc 650-651 -/
def stringToSign (sha : Str → Str) (datetime date region canon : Str) : Str :=
  lit "AWS4-HMAC-SHA256\n" ++ datetime ++ lit "\n" ++ scope date region ++ lit "\n" ++ hexEncode (sha canon)

/-- aws_creds_provider.cc 654-658 -/
def signingKey (hmac : Str → Str → Str) (secret date region : Str) : Str :=
  hmac (hmac (hmac (hmac (lit "AWS4" ++ secret) date) region) (lit "s3")) (lit "aws4_request")

/-- aws_creds_provider.cc 588-670 `Sign` at a time that is printed as `datetime` and `date`. -/
def awsSign (hmac : Str → Str → Str) (sha : Str → Str) (c : Creds) (region datetime date : Str) (r : Req) : Option Req :=
  let payload := payloadHash r
  let r := withAmzHeaders c datetime r
  let hs := signedHeaders r
  (canonicalRequest r hs payload).map fun canon =>
    let sig := hexEncode (hmac (signingKey hmac c.secret date region) (stringToSign sha datetime date region canon))
    setHeader (lit "Authorization") (lit "AWS4-HMAC-SHA256 Credential=" ++ c.id ++ lit "/" ++ scope date region ++ lit ", SignedHeaders=" ++ signedNames hs ++ lit ", Signature=" ++ sig) r

/-! ### Azure -/

/-- azure.cc 71-77: the headers are chosen by a comparison with case. -/
def xmsHeaders (r : Req) : List (Str × Str) := (r.headers.filter fun h => (lit "x-ms-").isPrefixOf h.1).mergeSort argLe

/-- azure.cc 80-86 -/
def contentLength (r : Req) : Str :=
  match getHeader r (lit "Content-Length") with
  | some v => if v ≠ lit "0" then v ++ lit "\n" else lit "\n"
  | none => lit "\n"

/-- azure.cc 107-113: an argument, of which the value is decoded; `none` is undefined behaviour. -/
def canonArg (a : Str × Str) : Option Str := (appendUrlDecoded a.2 []).map fun d => lit "\n" ++ a.1 ++ lit ":" ++ (if d.1 then d.2 else a.2)

/-- azure.cc 106-113 -/
def canonArgs : List (Str × Str) → Option Str
  | [] => some []
  | a :: l => (canonArg a).bind fun s => (canonArgs l).map fun t => s ++ t

/-- azure.cc 88-118 -/
def azureToSign (account : Str) (r : Req) : Option Str :=
  (canonArgs ((queryArgs r.target).mergeSort argLe)).map fun q =>
    r.method ++ lit "\n\n\n" ++ contentLength r ++ List.replicate 8 10 ++ canonicalHeaders (xmsHeaders r) ++ (lit "/" ++ account ++ (parseQuery r.target).1 ++ q)

/-- What signing comes to. -/
inductive Signed where
  | ok (r : Req)
  | crash
  | ub
deriving DecidableEq, Repr

/-- azure.cc 527-531 -/
def withXmsHeaders (date version : Str) (r : Req) : Req := setHeader (lit "x-ms-version") version (setHeader (lit "x-ms-date") date r)

/-- azure.cc 66-126 `ComputeSignature` and 534-540. A key that is not base64 fails a CHECK. -/
def azureSharedKey (hmac : Str → Str → Str) (b64 : Str → Str) (unb64 : Str → Option Str) (account key date version : Str) (r : Req) : Signed :=
  let r := withXmsHeaders date version r
  match unb64 key with
  | none => .crash
  | some k => match azureToSign account r with
    | none => .ub
    | some t => .ok (setHeader (lit "Authorization") (lit "SharedKey " ++ account ++ lit ":" ++ b64 (hmac k t)) r)

/-- azure.cc 541-549 -/
def azureBearer (token date version : Str) (r : Req) : Req := setHeader (lit "Authorization") (lit "Bearer " ++ token) (withXmsHeaders date version r)

/-- azure.cc 194-203 `TargetHasSasSignature` -/
def hasSig (target : Str) : Bool := (queryArgs target).any fun a => lower a.1 == lit "sig" && a.2 != []

/-- azure.cc 205-213 `AddSasToTarget` -/
def addSas (target sas : Str) : Str :=
  if sas = [] ∨ hasSig target = true then target
  else if (find 63 target).isNone then target ++ lit "?" ++ sas
  else target ++ lit "&" ++ sas

/-- azure.cc 550-554 -/
def azureSas (sas date version : Str) (r : Req) : Req :=
  let r := withXmsHeaders date version r
  { r with target := addSas r.target sas }

/-! ### Google -/

/-- gcs.cc 312-314 `Sign`; util/cloud/gcp/gcp_utils.cc 20-22 `AuthHeader`. -/
def gcpSign (token : Str) (r : Req) : Req := setHeader (lit "Authorization") (lit "Bearer " ++ token) r

end Verif.CloudSign
