import Mathlib.Data.List.Forall2
import Verif.CloudList.Model
/-! What services answer to a request for a listing, after their documentation; independently of the code that reads it. -/
namespace Verif.CloudList.Spec
open Verif.Text hiding Byte

/-- An object: its name, its size and its time as they are written in the reply. -/
structure Obj where
  key : Str
  size : Str
  time : Str

/-- A page of a listing: objects and common prefixes. -/
structure Page where
  objs : List Obj
  prefixes : List Str

/-- The object has one member of this name. -/
def Field (l : List (Str × Json)) (k : Str) (v : Json) : Prop := l.filter (fun m => m.1 = k) = [(k, v)]

/-- The object has no member of this name. -/
def Absent (l : List (Str × Json)) (k : Str) : Prop := ∀ m ∈ l, m.1 ≠ k

/-- A list of values, which is left out if it is empty. -/
def Array (l : List (Str × Json)) (k : Str) {α : Type} (rel : Json → α → Prop) (as : List α) : Prop := as = [] ∧ Absent l k ∨ ∃ js, Field l k (.arr js) ∧ List.Forall₂ rel js as

/-- The token is there if there is another page. -/
def Token (l : List (Str × Json)) (next : Str) : Prop := next = [] ∧ Absent l (lit "nextPageToken") ∨ next ≠ [] ∧ Field l (lit "nextPageToken") (.str next)

/-- A page of Google. -/
def GcsPage (d : Json) (p : Page) (next : Str) : Prop :=
  ∃ l, d = .obj l ∧
    Array l (lit "items") (fun j o => ∃ m, j = .obj m ∧ Field m (lit "name") (.str o.key) ∧ Field m (lit "size") (.str o.size) ∧ Field m (lit "updated") (.str o.time)) p.objs ∧
    Array l (lit "prefixes") (fun j s => j = .str s) p.prefixes ∧ Token l next

/-- A page of buckets of Google. -/
def GcsBucketPage (d : Json) (p : List Str) (next : Str) : Prop :=
  ∃ l, d = .obj l ∧ Array l (lit "items") (fun j s => ∃ m, j = .obj m ∧ Field m (lit "id") (.str s)) p ∧ Token l next

/-- The elements of this name, in order: what is in them. -/
inductive Named (n : Str) : List Xml → List (List Xml) → Prop
  | nil : Named n [] []
  | hit {k l r} : Named n l r → Named n (.elem n k :: l) (k :: r)
  | other {m k l r} : m ≠ n → Named n l r → Named n (.elem m k :: l) r
  | text {s l r} : Named n l r → Named n (.text s :: l) r

/-- The text in an element. -/
def Content (l : List Xml) (v : Str) : Prop := l = [] ∧ v = [] ∨ l = [.text v]

/-- The only element of this name has this text; or there is none, and the text is empty. -/
def Leaf (l : List Xml) (n v : Str) : Prop := (∃ k, Named n l [k] ∧ Content k v) ∨ Named n l [] ∧ v = []

/-- A page of Amazon. -/
def S3Page (d : List Xml) (p : Page) (next : Str) : Prop :=
  ∃ root cs ps, Named (lit "ListBucketResult") d [root] ∧ Named (lit "Contents") root cs ∧ Named (lit "CommonPrefixes") root ps ∧
    List.Forall₂ (fun c (o : Obj) => Leaf c (lit "Key") o.key ∧ Leaf c (lit "Size") o.size ∧ Leaf c (lit "LastModified") o.time) cs p.objs ∧
    List.Forall₂ (fun c s => Leaf c (lit "Prefix") s) ps p.prefixes ∧
    (next = [] ∧ Leaf root (lit "IsTruncated") (lit "false") ∨ next ≠ [] ∧ Leaf root (lit "IsTruncated") (lit "true") ∧ Leaf root (lit "NextContinuationToken") next)

/-- A page of Azure. -/
def AzurePage (d : List Xml) (p : Page) (next : Str) : Prop :=
  ∃ root blobs cs ps, Named (lit "EnumerationResults") d [root] ∧ Named (lit "Blobs") root [blobs] ∧ Named (lit "Blob") blobs cs ∧ Named (lit "BlobPrefix") blobs ps ∧
    List.Forall₂ (fun c (o : Obj) => Leaf c (lit "Name") o.key ∧ ∃ pr, Named (lit "Properties") c [pr] ∧ Leaf pr (lit "Content-Length") o.size ∧ Leaf pr (lit "Last-Modified") o.time) cs p.objs ∧
    List.Forall₂ (fun c s => Leaf c (lit "Name") s) ps p.prefixes ∧ Leaf root (lit "NextMarker") next

/-- A page of containers of Azure. -/
def AzureContainerPage (d : List Xml) (names : List Str) (next : Str) : Prop :=
  ∃ root cs, Named (lit "EnumerationResults") d [root] ∧ Named (lit "Containers") root [cs.map (.elem (lit "Container"))] ∧ List.Forall₂ (fun c s => Leaf c (lit "Name") s) cs names ∧ Leaf root (lit "NextMarker") next

/-- The service answers with these pages, one after the other, if it is asked with the token of the page before; the first is asked for without one. -/
inductive Serves {D π : Type} (srv : Str → Reply D) (shows : D → π → Str → Prop) : Str → List π → Prop
  | last {t d p} : srv t = .doc d → shows d p [] → Serves srv shows t [p]
  | more {t d p next ps} : srv t = .doc d → shows d p next → next ≠ [] → Serves srv shows next ps → Serves srv shows t (p :: ps)

/-- The service answers with these pages, and then a request fails. -/
inductive FailsAfter {D π : Type} (srv : Str → Reply D) (shows : D → π → Str → Prop) : Str → List π → Prop
  | now {t} : srv t = .fail ∨ srv t = .bad → FailsAfter srv shows t []
  | more {t d p next ps} : srv t = .doc d → shows d p next → next ≠ [] → FailsAfter srv shows next ps → FailsAfter srv shows t (p :: ps)

/-- What the user is told of a page: size, name and time of each object, and the prefixes. -/
def entries (num : Str → Nat) (time : Str → Int) (p : Page) : List Item := p.objs.map (fun o => ⟨num o.size, o.key, time o.time, false⟩) ++ p.prefixes.map fun s => ⟨0, s, 0, true⟩

/-- The loop over the pages ends, after whatever number of pages, and with this result only. -/
def Ends {ι : Type} (run : Nat → Option (Res ι Unit)) (r : Res ι Unit) : Prop := (∃ n, ∀ m, n ≤ m → run m = some r) ∧ ∀ m r', run m = some r' → r' = r

end Verif.CloudList.Spec
