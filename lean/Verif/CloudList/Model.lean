import Verif.Text.Model
/-!
Model of the listings of objects and buckets: util/cloud/gcp/gcs.cc 340-507, util/cloud/azure/storage.cc 34-150, 427-507, util/cloud/aws/s3_storage.cc 114-190, 407-480. The parsers of JSON and XML are not modelled: a reply is a document or
none. The requests are those of `Verif.CloudUrl` (C101); here a request is the token it asks the next page with.
-/
namespace Verif.CloudList
open Verif.Text hiding Byte

/-- A value of JSON. Numbers and truth values do not matter. -/
inductive Json where
  | str (s : Str)
  | arr (l : List Json)
  | obj (l : List (Str × Json))
  | other

/-- A node of XML. -/
inductive Xml where
  | elem (name : Str) (kids : List Xml)
  | text (s : Str)

/-- What comes back for a request: an error of `Send` or `Recv`, an empty body, a body that does not parse, or a document. -/
inductive Reply (D : Type) where
  | fail
  | empty
  | bad
  | doc (d : D)

/-- What a call comes to: a failed CHECK is a crash; an accessor of RapidJSON for another type of value and `front()` of an empty string are undefined behaviour. -/
inductive Out (α : Type) where
  | ok (a : α)
  | err
  | crash
  | ub
deriving DecidableEq, Repr

/-- util/cloud/utils.h 211-216 -/
structure Item where
  size : Nat
  key : Str
  mtime : Int
  isPrefix : Bool
deriving DecidableEq, Repr

/-- What was reported to the callback, and the outcome. -/
abbrev Res (ι α : Type) := List ι × Out α

/-- After some reports, go on. -/
def Res.andThen {ι α β : Type} (r : Res ι α) (f : α → Res ι β) : Res ι β :=
  match r.2 with
  | .ok a => (r.1 ++ (f a).1, (f a).2)
  | .err => (r.1, .err)
  | .crash => (r.1, .crash)
  | .ub => (r.1, .ub)

/-! ### Google -/

/-- `FindMember` of RapidJSON: the first member of this name. -/
def findMember (l : List (Str × Json)) (k : Str) : Option Json := (l.find? fun m => m.1 = k).map (·.2)

/-- `GetString` -/
def getString : Json → Out Str
  | .str s => .ok s
  | _ => .ub

/-- gcs.cc 469-475: a member that must be there, and a string. -/
def mustString (l : List (Str × Json)) (k : Str) : Out Str :=
  match findMember l k with
  | none => .crash
  | some v => getString v

def Out.bind {α β : Type} (x : Out α) (f : α → Out β) : Out β :=
  match x with
  | .ok a => f a
  | .err => .err
  | .crash => .crash
  | .ub => .ub

/-- gcs.cc 469-490: an item. `num` is `absl::SimpleAtoi` and `time` is `absl::ParseTime` in nanoseconds; an unreadable time is 0. -/
def gcsItem (num : Str → Option Nat) (time : Str → Option Int) : Json → Out Item
  | .obj l =>
    (mustString l (lit "name")).bind fun key => (mustString l (lit "size")).bind fun sz =>
      match num sz with
      | none => .crash
      | some n => (mustString l (lit "updated")).bind fun mt => .ok ⟨n, key, (time mt).getD 0, false⟩
  | _ => .ub

/-- gcs.cc 495-497 -/
def gcsPrefix : Json → Out Item
  | .str s => .ok ⟨0, s, 0, true⟩
  | _ => .ub

/-- The loops over an array: each element is reported before the next is read. -/
def each (f : Json → Out Item) : List Json → Res Item Unit
  | [] => ([], .ok ())
  | j :: l => match f j with
    | .ok i => Res.andThen ([i], .ok ()) fun _ => each f l
    | .err => ([], .err)
    | .crash => ([], .crash)
    | .ub => ([], .ub)

/-- gcs.cc 442-444 and 491-493: an array that may be missing. -/
def eachOf (f : Json → Out Item) : Option Json → Res Item Unit
  | none => ([], .ok ())
  | some (.arr l) => each f l
  | some _ => ([], .err)

/-- gcs.cc 500-505: the token of the next page. -/
def gcsToken (l : List (Str × Json)) : Out Str :=
  match findMember l (lit "nextPageToken") with
  | none => .ok []
  | some v => getString v

/-- gcs.cc 408-507 `List` for a page. -/
def gcsList (num : Str → Option Nat) (time : Str → Option Int) (srv : Str → Reply Json) (token : Str) : Res Item Str :=
  match srv token with
  | .fail => ([], .err)
  | .empty => ([], .ub)
  | .bad => ([], .err)
  | .doc (.obj l) =>
    (eachOf (gcsItem num time) (findMember l (lit "items"))).andThen fun _ => (eachOf gcsPrefix (findMember l (lit "prefixes"))).andThen fun _ => ([], gcsToken l)
  | .doc _ => ([], .ub)

/-- gcs.cc 397-406 `List` of all pages, and the loop that the headers prescribe for the other services (storage.h 35-42, s3_storage.h 45-52). The number bounds the pages; `none` means that there are more. -/
def pages {ι : Type} (list : Str → Res ι Str) : Nat → Str → Option (Res ι Unit)
  | 0, _ => none
  | n + 1, token => match list token with
    | (l, .ok next) => if next = [] then some (l, .ok ()) else (pages list n next).map fun r => (l ++ r.1, r.2)
    | (l, .err) => some (l, .err)
    | (l, .crash) => some (l, .crash)
    | (l, .ub) => some (l, .ub)

/-- gcs.cc 374-380: the buckets in an array; an element without `id` is skipped. -/
def gcsIds : List Json → Res Str Unit
  | [] => ([], .ok ())
  | .obj m :: l => match findMember m (lit "id") with
    | none => gcsIds l
    | some (.str s) => Res.andThen ([s], .ok ()) fun _ => gcsIds l
    | some _ => ([], .ub)
  | _ :: _ => ([], .ub)

/-- gcs.cc 350-390: a page of buckets. Without `items` the loop ends; else it goes on as for objects. -/
def gcsBucketPage (srv : Str → Reply Json) (token : Str) : Res Str Str :=
  match srv token with
  | .fail => ([], .err)
  | .empty => ([], .ub)
  | .bad => ([], .err)
  | .doc (.obj l) => match findMember l (lit "items") with
    | none => ([], .ok [])
    | some (.arr a) => (gcsIds a).andThen fun _ => ([], gcsToken l)
    | some _ => ([], .err)
  | .doc _ => ([], .ub)

/-- gcs.cc 340-395 `ListBuckets`. A token that is there but empty (no service sends it) would make the code ask for the first page again; here it ends the loop. -/
def gcsBuckets (srv : Str → Reply Json) (n : Nat) : Option (Res Str Unit) := pages (gcsBucketPage srv) n []

/-! ### XML -/

/-- `child(name)` of pugixml: the first child of this name. -/
def child (l : List Xml) (n : Str) : Option (List Xml) :=
  l.findSome? fun
    | .elem m k => if m = n then some k else none
    | .text _ => none

/-- `child(name)`, then `next_sibling(name)` to the end. -/
def siblings (l : List Xml) (n : Str) : List (List Xml) :=
  l.filterMap fun
    | .elem m k => if m = n then some k else none
    | .text _ => none

/-- `text()`: the first text in a node. -/
def textOf (l : List Xml) : Str :=
  (l.findSome? fun
    | .text s => some s
    | .elem _ _ => none).getD []

/-- `child_value(name)` and `child(name).text()`: the first text in that child, or the empty string. -/
def childValue (l : List Xml) (n : Str) : Str := match child l n with
  | none => []
  | some k => textOf k

/-! ### Amazon -/

/-- s3_storage.cc 160-178. `num` is `as_ullong`. A missing or unreadable time is 0. -/
def s3Item (num : Str → Nat) (time : Str → Option Int) (l : List Xml) : Item :=
  let lm := childValue l (lit "LastModified")
  ⟨num (childValue l (lit "Size")), childValue l (lit "Key"), if lm = [] then 0 else (time lm).getD 0, false⟩

/-- s3_storage.cc 136-190 `ParseXmlListObjects`: the items, whether there are more pages, and the token. -/
def s3Parse (num : Str → Nat) (time : Str → Option Int) (d : List Xml) : Option (List Item × Bool × Str) :=
  (child d (lit "ListBucketResult")).map fun root =>
    ((siblings root (lit "Contents")).map (s3Item num time) ++ (siblings root (lit "CommonPrefixes")).map (fun l => ⟨0, childValue l (lit "Prefix"), 0, true⟩),
      childValue root (lit "IsTruncated") == lit "true", childValue root (lit "NextContinuationToken"))

/-- s3_storage.cc 434-480 `List` -/
def s3List (num : Str → Nat) (time : Str → Option Int) (srv : Str → Reply (List Xml)) (token : Str) : Res Item Str :=
  match srv token with
  | .doc d => match s3Parse num time d with
    | none => ([], .err)
    | some (l, more, next) => (l, .ok (if more then next else []))
  | _ => ([], .err)

/-- s3_storage.cc 114-134 `ParseXmlListBuckets` and 407-432 `ListBuckets`, which asks once. -/
def s3Buckets (r : Reply (List Xml)) : Res Str Unit :=
  match r with
  | .doc d => match (child d (lit "ListAllMyBucketsResult")).bind fun root => child root (lit "Buckets") with
    | none => ([], .err)
    | some b => ((siblings b (lit "Bucket")).map fun l => childValue l (lit "Name"), .ok ())
  | _ => ([], .err)

/-! ### Azure -/

/-- storage.cc 117-137: a blob without properties is skipped. -/
def azureItem (num : Str → Nat) (time : Str → Option Int) (l : List Xml) : Option Item :=
  (child l (lit "Properties")).map fun p => ⟨num (childValue p (lit "Content-Length")), childValue l (lit "Name"), (time (childValue p (lit "Last-Modified"))).getD 0, false⟩

/-- storage.cc 88-148 `ParseXmlListBlobs` and 470-507 `List` -/
def azureList (num : Str → Nat) (time : Str → Option Int) (srv : Str → Reply (List Xml)) (token : Str) : Res Item Str :=
  match srv token with
  | .doc d => match child d (lit "EnumerationResults") with
    | none => ([], .err)
    | some root => match child root (lit "Blobs") with
      | none => ([], .err)
      | some b => ((siblings b (lit "Blob")).filterMap (azureItem num time) ++ (siblings b (lit "BlobPrefix")).map (fun l => ⟨0, childValue l (lit "Name"), 0, true⟩), .ok (childValue root (lit "NextMarker")))
  | _ => ([], .err)

/-- storage.cc 55-57: from the first container on, every node that follows, of whatever name. -/
def azureNames : List Xml → List Str
  | [] => []
  | .text _ :: l => [] :: azureNames l
  | .elem _ k :: l => childValue k (lit "Name") :: azureNames l

/-- A node of this name. -/
def isContainer : Xml → Bool
  | .elem m _ => m == lit "Container"
  | .text _ => false

/-- storage.cc 34-60 `ParseXmlListBuckets` and 427-459 `ListContainers`, which asks once. -/
def azureContainers (srv : Str → Reply (List Xml)) : Res Str Unit :=
  match srv [] with
  | .doc d => match (child d (lit "EnumerationResults")).bind fun root => child root (lit "Containers") with
    | none => ([], .err)
    | some b => (azureNames (b.dropWhile fun x => !isContainer x), .ok ())
  | _ => ([], .err)

end Verif.CloudList
