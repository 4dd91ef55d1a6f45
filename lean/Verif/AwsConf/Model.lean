/-!
# Where AWS credentials and S3 addresses come from

`CredentialsProviderChain` (`/repo/util/aws/credentials_provider_chain.cc` 15-65) and `S3EndpointProvider`
(`/repo/util/aws/s3_endpoint_provider.cc` 11-52). What a provider of the AWS SDK answers and how the SDK resolves
its own endpoints are parameters. Strings are lists of character codes.
-/
namespace Verif.AwsConf

abbrev Str := List Nat

/-- The characters of a literal. -/
def str (s : String) : Str := s.toList.map Char.toNat

/-- The providers that the chain can hold. -/
inductive Src
  | environment | profile | webIdentity | container | ec2
deriving DecidableEq, Repr

/-- `Aws::Auth::AWSCredentials`. -/
structure Creds where
  id : Str
  secret : Str
  token : Str
deriving DecidableEq, Repr

/-- The environment variables that the constructor reads. -/
structure Env where
  relativeUri : Str
  fullUri : Str
  ec2Disabled : Str

/-- `StringUtils::ToLower` (AWS SDK; ASCII). -/
def lower (s : Str) : Str := s.map fun c => if 65 ≤ c ∧ c ≤ 90 then c + 32 else c

/-- The constructor (credentials_provider_chain.cc 15-50): the providers, in order. -/
def providers (e : Env) : List Src :=
  [.environment, .profile, .webIdentity] ++
  (if e.relativeUri ≠ [] ∨ e.fullUri ≠ [] then [.container] else []) ++
  (if lower e.ec2Disabled ≠ str "true" then [.ec2] else [])

/-- `GetAWSCredentials` (lines 52-63): the credentials, and which providers were asked. -/
def get (answer : Src → Creds) : List Src → Creds × List Src
  | [] => (⟨[], [], []⟩, [])
  | p :: ps =>
    let c := answer p
    if !c.id.isEmpty && !c.secret.isEmpty then (c, [p])
    else
      let r := get answer ps
      (r.1, p :: r.2)

/-- A parameter of a request: its name, and its value if it is a string. -/
abbrev Param := Str × Option Str

/-- What `ResolveEndpoint` does. -/
inductive Out
  /-- The check of line 37 failed. -/
  | crash
  | url (u : Str)
  /-- The outcome of the SDK: an error, or its address with this scheme. -/
  | sdkError
  | sdk (https : Bool) (rest : Str)
deriving DecidableEq, Repr

/-- Lines 34-39: the last parameter named `Bucket`; `none`: the check failed. -/
def bucket : List Param → Str → Option Str
  | [], b => some b
  | p :: ps, b =>
    if p.1 = str "Bucket" then
      match p.2 with
      | none => none
      | some v => bucket ps v
    else bucket ps b

/-- Line 42. -/
def scheme (https : Bool) : Str := if https then str "https://" else str "http://"

/-- `ResolveEndpoint` (lines 15-50). The SDK's address is a scheme and a rest. -/
def resolve (endpoint : Str) (https : Bool) (sdk : List Param → Option (Bool × Str)) (ps : List Param) : Out :=
  if endpoint = [] then
    match sdk ps with
    | none => .sdkError
    | some (_, rest) => .sdk https rest
  else
    match bucket ps [] with
    | none => .crash
    | some b => if b ≠ [] then .url (scheme https ++ endpoint ++ 47 :: b) else .url (scheme https ++ endpoint)

end Verif.AwsConf
