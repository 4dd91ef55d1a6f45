import Verif.CloudSign.Model
/-!
Model of the Azure credentials: util/cloud/azure/azure.cc 36-47, 126-192, 215-525, 560-565 and util/cloud/azure/creds_provider.h. The environment is a function from names to values, an unset variable is empty (the code does not tell the
two apart). The metadata service is a parameter: what comes back for the request, with the parser of JSON left out.
-/
namespace Verif.AzureCreds
open Verif.Text hiding Byte
open Verif.Url Verif.CloudUrl Verif.CloudSign

/-- creds_provider.h 18-23 `AccountInfo` -/
structure Info where
  endpoint : Str
  name : Str
  pathPrefix : Str
  https : Bool
deriving DecidableEq, Repr

/-- creds_provider.h 19-23: the member initialisers. -/
def Info.empty : Info := ⟨[], [], [], true⟩

/-- creds_provider.h 32 -/
inductive Mode where
  | none | sharedKey | sas | bearer
deriving DecidableEq, Repr

/-- creds_provider.h 58 -/
inductive Source where
  | none | connectionString | env | managedIdentity
deriving DecidableEq, Repr

/-- The error codes in use. `net` stands for whatever the HTTP client reports. -/
inductive Err where
  | notSupported | badMessage | invalidArgument | permissionDenied | net
deriving DecidableEq, Repr

/-- creds_provider.h 79-93 -/
structure St where
  source : Source
  mode : Mode
  info : Info
  key : Str
  sas : Str
  token : Str
  expire : Nat
deriving DecidableEq, Repr

/-- azure.cc 43 -/
def defaultSuffix : Str := lit "core.windows.net"

/-- The environment. -/
abbrev Env := Str → Str

/-- azure.cc 136-151: one piece between semicolons. `splitKv` cuts at the first `=`; with none the value is empty. -/
def connPiece (part : Str) : Option (Str × Str) :=
  let p := strip part
  if p = [] then none
  else
    let k := strip (splitKv p).1
    if k = [] then none else some (lower k, strip (splitKv p).2)

/-- azure.cc 134-152 `ParseConnectionStringKV`. The map is a list with what is inserted first in front: `emplace` does not replace. -/
def connMap (s : Str) : List (Str × Str) := (split 59 s).filterMap connPiece

/-- azure.cc 154-160 `MapGet` -/
def mapGet (m : List (Str × Str)) (k : Str) : Str := ((m.find? fun e => e.1 = lower k).map (·.2)).getD []

/-- azure.cc 177-182: the path of an endpoint without the last slash. -/
def prefixOf (path old : Str) : Str :=
  if path = lit "/" then old else if 1 < path.length ∧ path.getLast? = some 47 then path.dropLast else path

/-- azure.cc 162-185 `ParseEndpointHost`; `none` if it returns false. -/
def parseEndpoint (endpoint : Str) (i : Info) : Option Info :=
  let e := strip endpoint
  if e = [] then none
  else
    let u := parseHttpUrl e
    if u.host = [] then none
    else
      let standard := u.port = (if u.https then lit "443" else lit "80")
      some { i with endpoint := if standard then u.host else u.host ++ lit ":" ++ u.port, https := u.https, pathPrefix := prefixOf u.path i.pathPrefix }

/-- The position of the first occurrence of a text, `string_view::find`. -/
def findStr (p : Str) : Str → Option Nat
  | [] => if p = [] then some 0 else none
  | c :: s => if p.isPrefixOf (c :: s) then some 0 else (findStr p s).map (· + 1)

/-- azure.cc 187-193 `InferAccountNameFromHost` -/
def inferName (host : Str) : Str :=
  match findStr (lit ".blob.") host with
  | none => []
  | some 0 => []
  | some n => host.take n

/-- azure.cc 518-524 `NormalizeSasQuery` -/
def normalizeSas (q : Str) : Str :=
  match strip q with
  | 63 :: r => r
  | r => r

/-- azure.cc 252-273 `ResolveServiceEndpointFromEnv`. On an error the record is as it was. -/
def resolveFromEnv (env : Env) (i : Info) : Except Err Info :=
  let found : Except Err Info :=
    if env (lit "AZURE_STORAGE_BLOB_ENDPOINT") ≠ [] then
      match parseEndpoint (env (lit "AZURE_STORAGE_BLOB_ENDPOINT")) i with
      | none => .error .badMessage
      | some j => .ok j
    else if env (lit "AZURE_STORAGE_ACCOUNT_URL") ≠ [] then
      match parseEndpoint (env (lit "AZURE_STORAGE_ACCOUNT_URL")) i with
      | none => .error .badMessage
      | some j => .ok j
    else if i.name ≠ [] then .ok { i with endpoint := i.name ++ lit ".blob." ++ defaultSuffix }
    else .error .notSupported
  match found with
  | .error e => .error e
  | .ok j => .ok (if j.name = [] then { j with name := inferName j.endpoint } else j)

/-- azure.cc 505-511 `AccountInfoFromUri` -/
def fromUri (requested : Str) : Info := ⟨requested ++ lit ".blob." ++ defaultSuffix, requested, [], true⟩

/-- azure.cc 513-516 `HasMatchingAccount` -/
def matching (requested name : Str) : Bool := requested = [] || name = [] || lower name = lower requested

/-- azure.cc 464-480, 482-488 `SetCredentials`, `SetSharedKey`, `SetSas` -/
def setCredentials (src : Source) (i : Info) (m : Mode) (secret : Str) : St :=
  ⟨src, m, i, if m = .sharedKey then secret else [], if m = .sharedKey then [] else secret, [], 0⟩

/-- azure.cc 490-503 `SetBearer` -/
def setBearer (i : Info) (token : Str) (ttl now : Nat) : St :=
  ⟨.managedIdentity, .bearer, i, [], [], token, now + if 60 < ttl then ttl - 60 else ttl⟩

/-- What a source comes to: a new state, or an error and the old state; `ub` is undefined behaviour. -/
inductive Res where
  | ok (s : St)
  | err (e : Err)
  | ub
deriving DecidableEq, Repr

/-- azure.cc 347-357: the endpoint of a connection string. -/
def connEndpoint (m : List (Str × Str)) (i : Info) : Except Err Info :=
  if mapGet m (lit "BlobEndpoint") ≠ [] then
    match parseEndpoint (mapGet m (lit "BlobEndpoint")) i with
    | none => .error .badMessage
    | some j => .ok j
  else
    let suffix := if mapGet m (lit "EndpointSuffix") = [] then defaultSuffix else mapGet m (lit "EndpointSuffix")
    if i.name = [] then .error .badMessage else .ok { i with endpoint := i.name ++ lit ".blob." ++ suffix }

/-- azure.cc 325-389 `TryConnectionString` -/
def tryConnectionString (requested : Str) (env : Env) : Res :=
  if env (lit "AZURE_STORAGE_CONNECTION_STRING") = [] then .err .notSupported
  else
    let m := connMap (env (lit "AZURE_STORAGE_CONNECTION_STRING"))
    if m = [] then .err .badMessage
    else if lower (mapGet m (lit "UseDevelopmentStorage")) = lower (lit "true") then .err .notSupported
    else
      match connEndpoint m { Info.empty with name := mapGet m (lit "AccountName") } with
      | .error e => .err e
      | .ok i =>
        let i := if i.name = [] then { i with name := inferName i.endpoint } else i
        if i.name = [] then .err .badMessage
        else if matching requested i.name = false then .err .invalidArgument
        else
          let i := if requested ≠ [] then fromUri requested else i
          if mapGet m (lit "AccountKey") ≠ [] then .ok (setCredentials .connectionString i .sharedKey (mapGet m (lit "AccountKey")))
          else if normalizeSas (mapGet m (lit "SharedAccessSignature")) ≠ [] then
            .ok (setCredentials .connectionString i .sas (normalizeSas (mapGet m (lit "SharedAccessSignature"))))
          else .err .badMessage

/-- azure.cc 395-401 and 425-431 -/
def startInfo (requested : Str) (env : Env) : Info :=
  if requested = [] then { Info.empty with name := env (lit "AZURE_STORAGE_ACCOUNT") } else fromUri requested

/-- azure.cc 391-422 `TryEnvSharedKey` -/
def tryEnv (requested : Str) (env : Env) : Res :=
  let key := env (lit "AZURE_STORAGE_KEY")
  let sas := normalizeSas (env (lit "AZURE_STORAGE_SAS_TOKEN"))
  match resolveFromEnv env (startInfo requested env) with
  | .error e => if key ≠ [] then .err e else if sas ≠ [] then .err e else .err .notSupported
  | .ok i =>
    if key ≠ [] then (if i.name = [] then .err .badMessage else .ok (setCredentials .env i .sharedKey key))
    else if sas ≠ [] then .ok (setCredentials .env i .sas sas)
    else .err .notSupported

/-- The member `expires_in` of the reply of the metadata service. -/
inductive Expires where
  | absent
  | uint (n : Nat)
  | str (s : Str)
  | other
deriving DecidableEq, Repr

/-- What comes back from the metadata service: an error of the client, a status other than 200, an empty body, a body that does not parse, a document that is not an object, or the two members (`token` is `none` if it is absent or not a string). -/
inductive Reply where
  | fail
  | status
  | empty
  | bad
  | notObject
  | doc (token : Option Str) (expires : Expires)
deriving DecidableEq, Repr

/-- `absl::SimpleAtoi<unsigned>`: white space around the number is ignored, a plus sign is allowed, the value has to fit 32 bits. -/
def simpleAtou (s : Str) : Option Nat :=
  let t := match strip s with
    | 43 :: r => r
    | r => r
  if t = [] ∨ t.all (fun c => 48 ≤ c && c ≤ 57) = false then none
  else
    let v := t.foldl (fun a c => 10 * a + (c.toNat - 48)) 0
    if v < 2 ^ 32 then some v else none

/-- azure.cc 237-245 -/
def ttlOf : Expires → Option Nat
  | .absent => none
  | .uint n => some n
  | .str s => simpleAtou s
  | .other => none

/-- azure.cc 440-445: the target of the request. -/
def imdsTarget (clientId : Str) : Option Str :=
  (appendUrlEncoded (lit "https://storage.azure.com/") (lit "/metadata/identity/oauth2/token?api-version=2018-02-01&resource=")).bind (optArg (lit "&client_id=") clientId)

/-- azure.cc 424-462 `TryManagedIdentity` and 215-248 `ParseImdsTokenResponse`. `imds` answers the request for a target; a document that is not an object makes `FindMember` assert. -/
def tryManagedIdentity (requested : Str) (env : Env) (clientId : Str) (imds : Str → Reply) (now : Nat) : Res :=
  match resolveFromEnv env (startInfo requested env) with
  | .error e => .err e
  | .ok i =>
    match imdsTarget clientId with
    | none => .ub
    | some t =>
      match imds t with
      | .fail => .err .net
      | .status => .err .permissionDenied
      | .empty => .ub
      | .bad => .err .badMessage
      | .notObject => .ub
      | .doc none _ => .err .badMessage
      | .doc (some token) e =>
        match ttlOf e with
        | none => .err .badMessage
        | some ttl => .ok (setBearer i token ttl now)

/-- azure.cc 278-285: what `Init` starts from; the token and its time stay. -/
def cleared (s : St) : St := { s with source := .none, mode := .none, info := Info.empty, key := [], sas := [] }

/-- azure.cc 277-316 `Init`: the error if there is one, and the state; `none` is undefined behaviour. -/
def init (requested : Str) (env : Env) (imds : Str → Reply) (now : Nat) (s : St) : Option (Option Err × St) :=
  match tryConnectionString requested env with
  | .ok t => some (none, t)
  | .ub => none
  | .err _ =>
    match tryEnv requested env with
    | .ok t => some (none, t)
    | .ub => none
    | .err _ =>
      match tryManagedIdentity requested env (env (lit "AZURE_CLIENT_ID")) imds now with
      | .ok t => some (none, t)
      | .ub => none
      | .err _ => some (some .permissionDenied, cleared s)

/-- azure.cc 560-565 `RefreshToken`; `clientId` is as `Init` has read it. -/
def refresh (requested : Str) (env : Env) (clientId : Str) (imds : Str → Reply) (now : Nat) (s : St) : Option (Option Err × St) :=
  if s.source = .managedIdentity then
    match tryManagedIdentity requested env clientId imds now with
    | .ok t => some (none, t)
    | .ub => none
    | .err e => some (some e, s)
  else some (none, s)

/-- azure.cc 318-323 `ServiceEndpoint` -/
def serviceEndpoint (s : St) : Str := if s.info.endpoint ≠ [] then s.info.endpoint else s.info.name ++ lit ".blob." ++ defaultSuffix

end Verif.AzureCreds
