import Verif.CloudList.Spec
import Mathlib.Tactic.FinCases
/-! C106: a listing reports every object once. -/
namespace Verif.CloudList
open Verif.Text hiding Byte
open Spec

theorem find_field {l : List (Str × Json)} {k : Str} {v : Json} (h : Field l k v) : findMember l k = some v := by
  unfold findMember
  rw [← List.head?_filter, h]; rfl

theorem find_absent {l : List (Str × Json)} {k : Str} (h : Absent l k) : findMember l k = none := by
  unfold findMember
  rw [Option.map_eq_none_iff, List.find?_eq_none]
  intro m hm; simpa using h m hm

theorem token_eq {l : List (Str × Json)} {next : Str} (h : Token l next) : gcsToken l = .ok next := by
  unfold gcsToken
  rcases h with ⟨rfl, h⟩ | ⟨_, h⟩
  · rw [find_absent h]
  · rw [find_field h]; rfl

theorem each_ok {α : Type} {f : Json → Out Item} {rel : Json → α → Prop} {g : α → Item} (h : ∀ j a, rel j a → f j = .ok (g a)) {js : List Json} {as : List α} (hf : List.Forall₂ rel js as) :
    each f js = (as.map g, .ok ()) := by
  induction hf with
  | nil => rfl
  | cons h1 _ ih => rw [each, h _ _ h1]; simp [Res.andThen, ih]

theorem eachOf_ok {α : Type} {f : Json → Out Item} {rel : Json → α → Prop} {g : α → Item} {l : List (Str × Json)} {k : Str} {as : List α} (h : ∀ j a, rel j a → a ∈ as → f j = .ok (g a)) (ha : Array l k rel as) :
    eachOf f (findMember l k) = (as.map g, .ok ()) := by
  rcases ha with ⟨rfl, h1⟩ | ⟨js, h1, h2⟩
  · rw [find_absent h1]; rfl
  · rw [find_field h1]
    show each f js = _
    clear h1
    induction h2 with
    | nil => rfl
    | @cons j a js as h3 _ ih =>
      rw [each, h _ _ h3 (by simp)]
      simp [Res.andThen, ih fun j a h1 h2 => h j a h1 (by simp [h2])]

theorem gcs_page {num : Str → Option Nat} {time : Str → Option Int} {srv : Str → Reply Json} {t : Str} {d : Json} {p : Page} {next : Str} (h1 : srv t = .doc d) (h2 : GcsPage d p next) (hn : ∀ o ∈ p.objs, (num o.size).isSome) :
    gcsList num time srv t = (entries (fun s => (num s).getD 0) (fun s => (time s).getD 0) p, .ok next) := by
  obtain ⟨l, rfl, ho, hp, ht⟩ := h2
  have e1 := eachOf_ok (f := gcsItem num time) (g := fun o : Obj => (⟨(num o.size).getD 0, o.key, (time o.time).getD 0, false⟩ : Item)) (by
    rintro j o ⟨m, rfl, a1, a2, a3⟩ hm
    obtain ⟨n, hn⟩ := Option.isSome_iff_exists.mp (hn o hm)
    simp [gcsItem, mustString, find_field a1, find_field a2, find_field a3, getString, Out.bind, hn]) ho
  have e2 := eachOf_ok (f := gcsPrefix) (g := fun s : Str => (⟨0, s, 0, true⟩ : Item)) (by
    rintro j s rfl _
    rfl) hp
  unfold gcsList
  rw [h1]
  simp only [e1, e2, Res.andThen, token_eq ht, List.append_nil]
  rfl

/-- The loop, if each page is read as it should be. -/
theorem pages_ok {ι D π : Type} {list : Str → Res ι Str} {srv : Str → Reply D} {shows : D → π → Str → Prop} {g : π → List ι} {t : Str} {ps : List π} (h : Serves srv shows t ps)
    (hl : ∀ t d p next, p ∈ ps → srv t = .doc d → shows d p next → list t = (g p, .ok next)) : ∀ n, ps.length ≤ n → pages list n t = some (ps.flatMap g, .ok ()) := by
  induction h with
  | @last t d p h1 h2 =>
    intro n hn
    obtain ⟨n, rfl⟩ : ∃ m, n = m + 1 := ⟨n - 1, by simp at hn; omega⟩
    rw [pages, hl _ _ _ _ (by simp) h1 h2]
    simp
  | @more t d p next ps h1 h2 h3 _ ih =>
    intro n hn
    obtain ⟨n, rfl⟩ : ∃ m, n = m + 1 := ⟨n - 1, by simp at hn; omega⟩
    rw [pages, hl _ _ _ _ (by simp) h1 h2]
    simp only [h3, if_false]
    rw [ih (fun t d p next hm => hl t d p next (by simp [hm])) n (by simp at hn; omega)]
    simp

theorem pages_fail {ι D π : Type} {list : Str → Res ι Str} {srv : Str → Reply D} {shows : D → π → Str → Prop} {g : π → List ι} {t : Str} {ps : List π} (h : FailsAfter srv shows t ps)
    (hl : ∀ t d p next, p ∈ ps → srv t = .doc d → shows d p next → list t = (g p, .ok next)) (he : ∀ t, srv t = .fail ∨ srv t = .bad → list t = ([], .err)) : ∀ n, ps.length < n → pages list n t = some (ps.flatMap g, .err) := by
  induction h with
  | @now t h1 =>
    intro n hn
    obtain ⟨n, rfl⟩ : ∃ m, n = m + 1 := ⟨n - 1, by simp at hn; omega⟩
    rw [pages, he _ h1]
    rfl
  | @more t d p next ps h1 h2 h3 _ ih =>
    intro n hn
    obtain ⟨n, rfl⟩ : ∃ m, n = m + 1 := ⟨n - 1, by simp at hn; omega⟩
    rw [pages, hl _ _ _ _ (by simp) h1 h2]
    simp only [h3, if_false]
    rw [ih (fun t d p next hm => hl t d p next (by simp [hm])) n (by simp at hn; omega)]
    simp

/-- More room for pages changes nothing. -/
theorem pages_mono {ι : Type} {list : Str → Res ι Str} : ∀ {n : Nat} {t : Str} {r : Res ι Unit}, pages list n t = some r → pages list (n + 1) t = some r
  | 0, _, _, h => by cases h
  | n + 1, t, r, h => by
    rw [pages] at h ⊢
    split at h
    · rename_i l next e
      split at h
      · rename_i hz; simp only [hz, if_true]; exact h
      · rename_i hz
        simp only [hz, if_false]
        obtain ⟨x, h1, h2⟩ := Option.map_eq_some_iff.mp h
        rw [pages_mono h1]; simpa using h2
    · exact h
    · exact h
    · exact h

theorem pages_le {ι : Type} {list : Str → Res ι Str} {n m : Nat} {t : Str} {r : Res ι Unit} (h : pages list n t = some r) (hm : n ≤ m) : pages list m t = some r := by
  induction hm with
  | refl => exact h
  | step _ ih => exact pages_mono ih

theorem ends {ι : Type} {list : Str → Res ι Str} {k : Nat} {t : Str} {r : Res ι Unit} (h : ∀ n, k ≤ n → pages list n t = some r) : Ends (fun n => pages list n t) r := by
  refine ⟨⟨k, h⟩, fun m r' hr => ?_⟩
  have h1 := pages_le hr (Nat.le_max_left m k)
  rw [h _ (Nat.le_max_right m k)] at h1
  exact (Option.some.inj h1).symm

/-- **C106** The listing of a bucket of Google reports every object and every prefix of every page once, page after page, whatever the pages; also if pages in between are empty. -/
theorem C106_gcs (num : Str → Option Nat) (time : Str → Option Int) (srv : Str → Reply Json) (ps : List Page) (h : Serves srv GcsPage [] ps) (hn : ∀ p ∈ ps, ∀ o ∈ p.objs, (num o.size).isSome) :
    Ends (fun n => pages (gcsList num time srv) n []) (ps.flatMap (entries (fun s => (num s).getD 0) fun s => (time s).getD 0), .ok ()) :=
  ends (pages_ok h fun _ _ p _ hm h1 h2 => gcs_page h1 h2 (hn p hm))

/-- **C106** If a request fails, the listing returns the error, and what was reported are the pages before, whole. -/
theorem C106_gcs_error (num : Str → Option Nat) (time : Str → Option Int) (srv : Str → Reply Json) (ps : List Page) (h : FailsAfter srv GcsPage [] ps) (hn : ∀ p ∈ ps, ∀ o ∈ p.objs, (num o.size).isSome) :
    Ends (fun n => pages (gcsList num time srv) n []) (ps.flatMap (entries (fun s => (num s).getD 0) fun s => (time s).getD 0), .err) :=
  ends (pages_fail h (fun _ _ p _ hm h1 h2 => gcs_page h1 h2 (hn p hm)) fun t ht => by unfold gcsList; rcases ht with e | e <;> rw [e])

/-! ### XML -/

theorem siblings_named {n : Str} {l : List Xml} {r : List (List Xml)} (h : Named n l r) : siblings l n = r := by
  unfold siblings
  induction h with
  | nil => rfl
  | hit _ ih => simp [ih]
  | other hm _ ih => simp [hm, ih]
  | text _ ih => simp [ih]

theorem child_named {n : Str} {l : List Xml} {r : List (List Xml)} (h : Named n l r) : child l n = r.head? := by
  unfold child
  induction h with
  | nil => rfl
  | hit _ ih => simp
  | other hm _ ih => simp [hm, ih]
  | text _ ih => simp [ih]

theorem childValue_leaf {l : List Xml} {n v : Str} (h : Leaf l n v) : childValue l n = v := by
  unfold childValue
  rcases h with ⟨k, h1, h2⟩ | ⟨h1, rfl⟩
  · rw [child_named h1]
    rcases h2 with ⟨rfl, rfl⟩ | rfl <;> rfl
  · rw [child_named h1]; rfl

theorem map_forall₂ {α β γ : Type} {rel : α → β → Prop} {f : α → γ} {g : β → γ} (h : ∀ a b, rel a b → f a = g b) {as : List α} {bs : List β} (hf : List.Forall₂ rel as bs) : as.map f = bs.map g := by
  induction hf with
  | nil => rfl
  | cons h1 _ ih => rw [List.map_cons, List.map_cons, h _ _ h1, ih]

theorem filterMap_forall₂ {α β γ : Type} {rel : α → β → Prop} {f : α → Option γ} {g : β → γ} (h : ∀ a b, rel a b → f a = some (g b)) {as : List α} {bs : List β} (hf : List.Forall₂ rel as bs) : as.filterMap f = bs.map g := by
  induction hf with
  | nil => rfl
  | cons h1 _ ih => rw [List.filterMap_cons, h _ _ h1, List.map_cons, ih]

/-- The time of Amazon: none is 0. -/
def timeOr (time : Str → Option Int) (s : Str) : Int := if s = [] then 0 else (time s).getD 0

theorem s3_page {num : Str → Nat} {time : Str → Option Int} {srv : Str → Reply (List Xml)} {t : Str} {d : List Xml} {p : Page} {next : Str} (h1 : srv t = .doc d) (h2 : S3Page d p next) :
    s3List num time srv t = (entries num (timeOr time) p, .ok next) := by
  obtain ⟨root, cs, ps, hr, hc, hp, fc, fp, hn⟩ := h2
  have e1 := map_forall₂ (f := s3Item num time) (g := fun o : Obj => (⟨num o.size, o.key, timeOr time o.time, false⟩ : Item)) (by
    rintro c o ⟨a1, a2, a3⟩
    simp [s3Item, childValue_leaf a1, childValue_leaf a2, childValue_leaf a3, timeOr]) fc
  have e2 := map_forall₂ (f := fun l => (⟨0, childValue l (lit "Prefix"), 0, true⟩ : Item)) (g := fun s : Str => (⟨0, s, 0, true⟩ : Item)) (by
    intro c s a1
    simp [childValue_leaf a1]) fp
  unfold s3List
  rw [h1]
  simp only [s3Parse, child_named hr, List.head?_cons, Option.map_some, siblings_named hc, siblings_named hp, e1, e2]
  rcases hn with ⟨rfl, a1⟩ | ⟨_, a1, a2⟩
  · rw [childValue_leaf a1, if_neg (by decide +kernel)]; rfl
  · rw [childValue_leaf a1, if_pos (by decide +kernel), childValue_leaf a2]; rfl

/-- **C106** The loop that the interface prescribes for a bucket of Amazon reports every object and every prefix of every page once, page after page. -/
theorem C106_s3 (num : Str → Nat) (time : Str → Option Int) (srv : Str → Reply (List Xml)) (ps : List Page) (h : Serves srv S3Page [] ps) :
    Ends (fun n => pages (s3List num time srv) n []) (ps.flatMap (entries num fun s => if s = [] then 0 else (time s).getD 0), .ok ()) :=
  ends (pages_ok h fun _ _ _ _ _ h1 h2 => s3_page h1 h2)

theorem C106_s3_error (num : Str → Nat) (time : Str → Option Int) (srv : Str → Reply (List Xml)) (ps : List Page) (h : FailsAfter srv S3Page [] ps) :
    Ends (fun n => pages (s3List num time srv) n []) (ps.flatMap (entries num fun s => if s = [] then 0 else (time s).getD 0), .err) :=
  ends (pages_fail h (fun _ _ _ _ _ h1 h2 => s3_page h1 h2) fun t ht => by unfold s3List; rcases ht with e | e <;> rw [e])

theorem azure_page {num : Str → Nat} {time : Str → Option Int} {srv : Str → Reply (List Xml)} {t : Str} {d : List Xml} {p : Page} {next : Str} (h1 : srv t = .doc d) (h2 : AzurePage d p next) :
    azureList num time srv t = (entries num (fun s => (time s).getD 0) p, .ok next) := by
  obtain ⟨root, blobs, cs, ps, hr, hb, hc, hp, fc, fp, hn⟩ := h2
  have e1 := filterMap_forall₂ (f := azureItem num time) (g := fun o : Obj => (⟨num o.size, o.key, (time o.time).getD 0, false⟩ : Item)) (by
    rintro c o ⟨a1, pr, a2, a3, a4⟩
    simp [azureItem, childValue_leaf a1, child_named a2, childValue_leaf a3, childValue_leaf a4]) fc
  have e2 := map_forall₂ (f := fun l => (⟨0, childValue l (lit "Name"), 0, true⟩ : Item)) (g := fun s : Str => (⟨0, s, 0, true⟩ : Item)) (by
    intro c s a1
    simp [childValue_leaf a1]) fp
  unfold azureList
  rw [h1]
  simp only [child_named hr, child_named hb, List.head?_cons, siblings_named hc, siblings_named hp, e1, e2, childValue_leaf hn]
  rfl

/-- **C106** The loop that the interface prescribes for a container of Azure reports every blob and every prefix of every page once, page after page. -/
theorem C106_azure (num : Str → Nat) (time : Str → Option Int) (srv : Str → Reply (List Xml)) (ps : List Page) (h : Serves srv AzurePage [] ps) :
    Ends (fun n => pages (azureList num time srv) n []) (ps.flatMap (entries num fun s => (time s).getD 0), .ok ()) :=
  ends (pages_ok h fun _ _ _ _ _ h1 h2 => azure_page h1 h2)

theorem C106_azure_error (num : Str → Nat) (time : Str → Option Int) (srv : Str → Reply (List Xml)) (ps : List Page) (h : FailsAfter srv AzurePage [] ps) :
    Ends (fun n => pages (azureList num time srv) n []) (ps.flatMap (entries num fun s => (time s).getD 0), .err) :=
  ends (pages_fail h (fun _ _ _ _ _ h1 h2 => azure_page h1 h2) fun t ht => by unfold azureList; rcases ht with e | e <;> rw [e])

/-! ### Buckets -/

theorem ids_ok {js : List Json} {as : List Str} (hf : List.Forall₂ (fun j s => ∃ m, j = .obj m ∧ Field m (lit "id") (.str s)) js as) : gcsIds js = (as, .ok ()) := by
  induction hf with
  | nil => rfl
  | cons h1 _ ih =>
    obtain ⟨m, rfl, h2⟩ := h1
    rw [gcsIds, find_field h2]
    simp [Res.andThen, ih]

theorem bucket_page {srv : Str → Reply Json} {t : Str} {d : Json} {p : List Str} {next : Str} (h1 : srv t = .doc d) (h2 : GcsBucketPage d p next) (hn : next ≠ [] → p ≠ []) : gcsBucketPage srv t = (p, .ok next) := by
  obtain ⟨l, rfl, ha, ht⟩ := h2
  unfold gcsBucketPage
  rw [h1]
  rcases ha with ⟨rfl, h3⟩ | ⟨js, h3, h4⟩
  · simp only [find_absent h3]
    have : next = [] := by
      by_contra hc; exact hn hc rfl
    rw [this]
  · simp only [find_field h3, ids_ok h4, Res.andThen, token_eq ht, List.append_nil]

/-- **C106** The listing of the buckets of Google reports the buckets of all pages, if no page but the last is empty. -/
theorem C106_gcs_buckets_partial (srv : Str → Reply Json) (ps : List (List Str)) (h : Serves srv (fun d p next => GcsBucketPage d p next ∧ (next ≠ [] → p ≠ [])) [] ps) : Ends (gcsBuckets srv) (ps.flatten, .ok ()) := by
  have := ends (pages_ok (g := id) h fun _ _ _ _ _ h1 h2 => bucket_page h1 h2.1 h2.2)
  rw [List.flatMap_id] at this
  exact this

/-- **C106** Disagreement: a page without buckets ends the listing, without an error, although it has the token of another page. -/
theorem C106_gcs_buckets_stops (srv : Str → Reply Json) (d : Json) (next : Str) (l : List (Str × Json)) (h : srv [] = .doc d) (hd : d = .obj l) (_hp : GcsBucketPage d [] next) (ha : Absent l (lit "items")) : Ends (gcsBuckets srv) ([], .ok ()) := by
  refine ends (k := 1) fun n hn => ?_
  obtain ⟨n, rfl⟩ : ∃ m, n = m + 1 := ⟨n - 1, by omega⟩
  rw [pages, gcsBucketPage, h, hd]
  simp [find_absent ha]

/-- **C106** Disagreement: an object without a size, or with one that is not a number, ends the process; so does an empty body with undefined behaviour. -/
theorem C106_gcs_crash (num : Str → Option Nat) (time : Str → Option Int) (srv : Str → Reply Json) (t : Str) (l m : List (Str × Json)) (js : List Json) (key : Str) (h : srv t = .doc (.obj l)) (hi : Field l (lit "items") (.arr (.obj m :: js)))
    (hk : Field m (lit "name") (.str key)) (hs : Absent m (lit "size") ∨ ∃ s, Field m (lit "size") (.str s) ∧ num s = none) : gcsList num time srv t = ([], .crash) := by
  have : gcsItem num time (.obj m) = .crash := by
    rcases hs with h1 | ⟨s, h1, h2⟩
    · simp [gcsItem, mustString, find_field hk, find_absent h1, getString, Out.bind]
    · simp [gcsItem, mustString, find_field hk, find_field h1, getString, Out.bind, h2]
  unfold gcsList
  rw [h]
  simp only [find_field hi, eachOf, each, this, Res.andThen]

theorem C106_gcs_empty_body (num : Str → Option Nat) (time : Str → Option Int) (srv : Str → Reply Json) (t : Str) (h : srv t = .empty) : gcsList num time srv t = ([], .ub) ∧ gcsBucketPage srv t = ([], .ub) := by
  unfold gcsList gcsBucketPage; rw [h]; exact ⟨rfl, rfl⟩

/-- **C106** The buckets of Amazon are reported in the order of the reply. -/
theorem C106_s3_buckets (d root b : List Xml) (bs : List (List Xml)) (names : List Str) (h1 : Named (lit "ListAllMyBucketsResult") d [root]) (h2 : Named (lit "Buckets") root [b]) (h3 : Named (lit "Bucket") b bs)
    (h4 : List.Forall₂ (fun c s => Leaf c (lit "Name") s) bs names) : s3Buckets (.doc d) = (names, .ok ()) := by
  unfold s3Buckets
  simp only [child_named h1, List.head?_cons, Option.bind_some, child_named h2, siblings_named h3]
  rw [map_forall₂ (g := id) (fun c s a1 => childValue_leaf a1) h4, List.map_id]

theorem azure_containers {srv : Str → Reply (List Xml)} {d : List Xml} {names : List Str} {next : Str} (h : srv [] = .doc d) (hp : AzureContainerPage d names next) : azureContainers srv = (names, .ok ()) := by
  obtain ⟨root, cs, h1, h2, h4, -⟩ := hp
  have e : ∀ cs : List (List Xml), azureNames (cs.map (.elem (lit "Container"))) = cs.map fun c => childValue c (lit "Name") := by
    intro cs
    induction cs with
    | nil => rfl
    | cons a l ih => rw [List.map_cons, azureNames, ih]; rfl
  have e2 : ∀ cs : List (List Xml), (cs.map (Xml.elem (lit "Container"))).dropWhile (fun x => !isContainer x) = cs.map (Xml.elem (lit "Container")) := by
    intro cs
    cases cs with
    | nil => rfl
    | cons a l => simp [isContainer]
  unfold azureContainers
  rw [h]
  simp only [child_named h1, List.head?_cons, Option.bind_some, child_named h2]
  rw [e2, e, map_forall₂ (g := id) (fun c s a1 => childValue_leaf a1) h4, List.map_id]

/-- **C106** The containers of Azure are reported, in order, if there is one page. -/
theorem C106_azure_containers_partial (srv : Str → Reply (List Xml)) (names : List Str) (h : Serves srv AzureContainerPage [] [names]) : azureContainers srv = (names, .ok ()) := by
  cases h with
  | last h1 h2 => exact azure_containers h1 h2
  | more _ _ _ h => cases h

/-- **C106** Disagreement: of several pages of containers only the first is reported, and no error is returned. -/
theorem C106_azure_containers_first_page (srv : Str → Reply (List Xml)) (p q : List Str) (ps : List (List Str)) (h : Serves srv AzureContainerPage [] (p :: q :: ps)) : azureContainers srv = (p, .ok ()) := by
  cases h with
  | more h1 h2 _ _ => exact azure_containers h1 h2

/-! ### The hypotheses are met -/

/-- Three pages of Google, of which the second is empty. -/
def exGcs (t : Str) : Reply Json :=
  if t = [] then .doc (.obj [(lit "kind", .other), (lit "items", .arr [.obj [(lit "name", .str (lit "a")), (lit "size", .str (lit "3")), (lit "updated", .str (lit "T"))]]), (lit "nextPageToken", .str (lit "x"))])
  else if t = lit "x" then .doc (.obj [(lit "nextPageToken", .str (lit "y"))])
  else .doc (.obj [(lit "prefixes", .arr [.str (lit "d/")])])

def exPages : List Page := [⟨[⟨lit "a", lit "3", lit "T"⟩], []⟩, ⟨[], []⟩, ⟨[], [lit "d/"]⟩]

example : Serves exGcs GcsPage [] exPages :=
  .more (next := lit "x") rfl ⟨_, rfl, .inr ⟨_, rfl, .cons ⟨_, rfl, rfl, rfl, rfl⟩ .nil⟩, .inl ⟨rfl, by intro m hm; fin_cases hm <;> decide +kernel⟩, .inr ⟨by decide, rfl⟩⟩ (by decide)
    (.more (next := lit "y") rfl ⟨_, rfl, .inl ⟨rfl, by intro m hm; fin_cases hm; decide +kernel⟩, .inl ⟨rfl, by intro m hm; fin_cases hm; decide +kernel⟩, .inr ⟨by decide, rfl⟩⟩ (by decide)
      (.last rfl ⟨_, rfl, .inl ⟨rfl, by intro m hm; fin_cases hm; decide +kernel⟩, .inr ⟨_, rfl, .cons rfl .nil⟩, .inl ⟨rfl, by intro m hm; fin_cases hm; decide +kernel⟩⟩))

example : pages (gcsList (fun s => if s = lit "3" then some 3 else none) (fun _ => some 7) exGcs) 5 [] = some ([⟨3, lit "a", 7, false⟩, ⟨0, lit "d/", 0, true⟩], .ok ()) := by decide +kernel

/-- Buckets: the second page is empty, and the third is never asked for. -/
def exBuckets (t : Str) : Reply Json :=
  if t = [] then .doc (.obj [(lit "items", .arr [.obj [(lit "id", .str (lit "a"))]]), (lit "nextPageToken", .str (lit "x"))])
  else if t = lit "x" then .doc (.obj [(lit "nextPageToken", .str (lit "y"))])
  else .doc (.obj [(lit "items", .arr [.obj [(lit "id", .str (lit "b"))]])])

example : gcsBuckets exBuckets 5 = some ([lit "a"], .ok ()) := by decide +kernel

/-- Two pages of Amazon. -/
def exS3 (t : Str) : Reply (List Xml) :=
  if t = [] then .doc [.elem (lit "ListBucketResult") [.elem (lit "IsTruncated") [.text (lit "true")], .elem (lit "Contents") [.elem (lit "Key") [.text (lit "a")], .elem (lit "Size") [.text (lit "3")]], .elem (lit "NextContinuationToken") [.text (lit "x")]]]
  else .doc [.elem (lit "ListBucketResult") [.elem (lit "IsTruncated") [.text (lit "false")], .elem (lit "CommonPrefixes") [.elem (lit "Prefix") [.text (lit "d/")]]]]

/-- `Named` can be computed. -/
theorem named_siblings (n : Str) : ∀ l : List Xml, Named n l (siblings l n)
  | [] => .nil
  | .text s :: l => .text (named_siblings n l)
  | .elem m k :: l => by
    by_cases h : m = n
    · subst h
      have : siblings (.elem m k :: l) m = k :: siblings l m := by simp [siblings]
      rw [this]; exact .hit (named_siblings m l)
    · have : siblings (.elem m k :: l) n = siblings l n := by simp [siblings, h]
      rw [this]; exact .other h (named_siblings n l)

theorem named_of {n : Str} {l : List Xml} {r : List (List Xml)} (h : siblings l n = r) : Named n l r := h ▸ named_siblings n l

example : Serves exS3 S3Page [] [⟨[⟨lit "a", lit "3", []⟩], []⟩, ⟨[], [lit "d/"]⟩] :=
  .more (next := lit "x") rfl ⟨_, _, _, named_of rfl, named_of rfl, named_of rfl, .cons ⟨.inl ⟨_, named_of rfl, .inr rfl⟩, .inl ⟨_, named_of rfl, .inr rfl⟩, .inr ⟨named_of rfl, rfl⟩⟩ .nil, .nil,
      .inr ⟨by decide, .inl ⟨_, named_of rfl, .inr rfl⟩, .inl ⟨_, named_of rfl, .inr rfl⟩⟩⟩ (by decide)
    (.last rfl ⟨_, _, _, named_of rfl, named_of rfl, named_of rfl, .nil, .cons (.inl ⟨_, named_of rfl, .inr rfl⟩) .nil, .inl ⟨rfl, .inl ⟨_, named_of rfl, .inr rfl⟩⟩⟩)

/-- Two pages of Azure. -/
def exAzure (t : Str) : Reply (List Xml) :=
  if t = [] then .doc [.elem (lit "EnumerationResults") [.elem (lit "Blobs") [.elem (lit "Blob") [.elem (lit "Name") [.text (lit "a")], .elem (lit "Properties") [.elem (lit "Content-Length") [.text (lit "3")]]]], .elem (lit "NextMarker") [.text (lit "x")]]]
  else .doc [.elem (lit "EnumerationResults") [.elem (lit "Blobs") [.elem (lit "BlobPrefix") [.elem (lit "Name") [.text (lit "d/")]]], .elem (lit "NextMarker") []]]

example : Serves exAzure AzurePage [] [⟨[⟨lit "a", lit "3", []⟩], []⟩, ⟨[], [lit "d/"]⟩] :=
  .more (next := lit "x") rfl ⟨_, _, _, _, named_of rfl, named_of rfl, named_of rfl, named_of rfl, .cons ⟨.inl ⟨_, named_of rfl, .inr rfl⟩, _, named_of rfl, .inl ⟨_, named_of rfl, .inr rfl⟩, .inr ⟨named_of rfl, rfl⟩⟩ .nil, .nil,
      .inl ⟨_, named_of rfl, .inr rfl⟩⟩ (by decide)
    (.last rfl ⟨_, _, _, _, named_of rfl, named_of rfl, named_of rfl, named_of rfl, .nil, .cons (.inl ⟨_, named_of rfl, .inr rfl⟩) .nil, .inl ⟨_, named_of rfl, .inl ⟨rfl, rfl⟩⟩⟩)

/-- Two pages of containers. -/
def exContainers (t : Str) : Reply (List Xml) :=
  if t = [] then .doc [.elem (lit "EnumerationResults") [.elem (lit "Containers") [.elem (lit "Container") [.elem (lit "Name") [.text (lit "a")]]], .elem (lit "NextMarker") [.text (lit "x")]]]
  else .doc [.elem (lit "EnumerationResults") [.elem (lit "Containers") [.elem (lit "Container") [.elem (lit "Name") [.text (lit "b")]]], .elem (lit "NextMarker") []]]

example : Serves exContainers AzureContainerPage [] [[lit "a"], [lit "b"]] :=
  .more (next := lit "x") rfl ⟨_, [[.elem (lit "Name") [.text (lit "a")]]], named_of rfl, named_of rfl, .cons (.inl ⟨_, named_of rfl, .inr rfl⟩) .nil, .inl ⟨_, named_of rfl, .inr rfl⟩⟩ (by decide)
    (.last rfl ⟨_, [[.elem (lit "Name") [.text (lit "b")]]], named_of rfl, named_of rfl, .cons (.inl ⟨_, named_of rfl, .inr rfl⟩) .nil, .inl ⟨_, named_of rfl, .inl ⟨rfl, rfl⟩⟩⟩)

end Verif.CloudList
