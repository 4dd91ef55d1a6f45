import Verif.Text.Model
import Verif.Url.Model
/-!
Model of the request targets that the cloud clients build: util/cloud/gcp/gcs_file.cc, util/cloud/gcp/gcs.cc, util/cloud/azure/storage.cc, util/cloud/aws/s3_storage.cc, and of the path that the AWS
signature covers: util/cloud/aws/aws_creds_provider.cc. `none` stands for a write outside a buffer in `AppendUrlEncoded`.
-/
namespace Verif.CloudUrl
open Verif.Text hiding Byte
open Verif.Url

/-- How `absl::StrCat` prints an unsigned number. -/
def decimal (n : Nat) : Str := if n < 10 then [48 + n.toUInt8] else decimal (n / 10) ++ [48 + (n % 10).toUInt8]

/-- Appends the pieces, each encoded, with slashes between them. -/
def joinEnc : List Str → Str → Option Str
  | [], d => some d
  | [p], d => appendUrlEncoded p d
  | p :: q :: ps, d => (appendUrlEncoded p d).bind fun d => joinEnc (q :: ps) (d ++ [47])

/-- gcs_file.cc 54-61 `BuildGetObjUrl` -/
def gcsGetUrl (bucket key : Str) : Option Str := (appendUrlEncoded key (lit "/storage/v1/b/" ++ bucket ++ lit "/o/")).map (· ++ lit "?alt=media")

/-- gcs_file.cc 307-309: the target that starts an upload. -/
def gcsUploadUrl (bucket key : Str) : Option Str := appendUrlEncoded key (lit "/upload/storage/v1/b/" ++ bucket ++ lit "/o?uploadType=resumable&name=")

/-- Appends an encoded argument if it is not empty. -/
def optArg (name value d : Str) : Option Str := if value = [] then some d else appendUrlEncoded value (d ++ name)

/-- gcs.cc 410-419: the target of `GCS::List`. The prefix is always given. -/
def gcsListUrl (bucket pre : Str) (recursive : Bool) (max : Nat) (token : Str) : Option Str :=
  (appendUrlEncoded pre (lit "/storage/v1/b/" ++ bucket ++ lit "/o?maxResults=" ++ decimal max ++ lit "&prefix=")).bind fun u =>
    optArg (lit "&pageToken=") token (u ++ (if recursive then [] else lit "&delimiter=%2f"))

/-- azure/storage.cc 166-176 `AppendUrlEncodedPath`: each round of the loop takes the text up to the next slash; these are the pieces of `split`. -/
def appendUrlEncodedPath (path d : Str) : Option Str := joinEnc (split 47 path) d

/-- azure/storage.cc 178-185 `BuildObjectUrl` -/
def azureObjectUrl (pathPrefix container key : Str) : Option Str := (appendUrlEncoded container (pathPrefix ++ [47])).bind fun u => appendUrlEncodedPath key (u ++ [47])

/-- azure/storage.cc 481-495: the target of `Storage::List`. The container is not encoded here. -/
def azureListUrl (pathPrefix container pre : Str) (recursive : Bool) (max : Nat) (token : Str) : Option Str :=
  (optArg (lit "&prefix=") pre (pathPrefix ++ [47] ++ container ++ lit "?restype=container&comp=list" ++ lit "&maxresults=" ++ decimal max)).bind fun u =>
    optArg (lit "&marker=") token (u ++ (if recursive then [] else lit "&delimiter=%2f"))

/-- azure/storage.cc 386-387, 404-406: the name of a block, `absl::Dec(i, absl::kZeroPad4)`. -/
def blockId (i : Nat) : Str := List.replicate (4 - (decimal i).length) 48 ++ decimal i

/-- s3_storage.cc 74-79 `BucketObjectPath`: nothing is encoded. -/
def s3ObjectPath (virtualHosted : Bool) (bucket key : Str) : Str := if virtualHosted then lit "/" ++ key else lit "/" ++ bucket ++ lit "/" ++ key

/-- s3_storage.cc 81-86 `BucketQueryPath` -/
def s3QueryPath (virtualHosted : Bool) (bucket query : Str) : Str := if virtualHosted then lit "/?" ++ query else lit "/" ++ bucket ++ lit "?" ++ query

/-- s3_storage.cc 440-454: the target of `S3Storage::List`. -/
def s3ListUrl (virtualHosted : Bool) (bucket pre : Str) (recursive : Bool) (max : Nat) (token : Str) : Option Str :=
  (optArg (lit "&prefix=") pre (lit "list-type=2&max-keys=" ++ decimal max)).bind fun q =>
    optArg (lit "&continuation-token=") token (s3QueryPath virtualHosted bucket (q ++ (if recursive then [] else lit "&delimiter=%2F")))

/-- aws_creds_provider.cc 70-83 `CanonicalUri` -/
def canonicalUri (path : Str) : Option Str := if path = [] ∨ path = lit "/" then some (lit "/") else joinEnc (split 47 path) []

/-- Comparing strings byte by byte as `std::string_view` does. -/
def strLe : Str → Str → Bool
  | [], _ => true
  | _ :: _, [] => false
  | a :: s, b :: t => if a < b then true else if b < a then false else strLe s t

/-- Comparing pairs as `std::pair` does. -/
def argLe (a b : Str × Str) : Bool := if a.1 = b.1 then strLe a.2 b.2 else strLe a.1 b.1

/-- Joining texts with a separator. -/
def joinWith (c : Byte) : List Str → Str
  | [] => []
  | [p] => p
  | p :: q :: ps => p ++ c :: joinWith c (q :: ps)

/-- aws_creds_provider.cc 88-102 `CanonicalQueryString`. `std::sort` is modelled by a merge sort; the order is total, so every sort gives this list. -/
def canonicalQuery (q : Str) : Str := if q = [] then [] else joinWith 38 (((splitQuery q).mergeSort argLe).map fun a => a.1 ++ 61 :: a.2)

/-- aws_creds_provider.cc 635-638: the query that is signed. -/
def signedQuery (target : Str) : Str := canonicalQuery (parseQuery target).2

/-- aws_creds_provider.cc 635-638: the path that is signed for a request with this target. -/
def signedPath (target : Str) : Option Str := canonicalUri (parseQuery target).1

end Verif.CloudUrl
