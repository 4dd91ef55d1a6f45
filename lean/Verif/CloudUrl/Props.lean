import Verif.CloudUrl.Spec
import Verif.CloudUrl.Lemmas
/-! C101: the targets of the requests for cloud objects name exactly the object that was asked for. -/
namespace Verif.CloudUrl
open Verif.Text hiding Byte
open Verif.Url Verif.Url.Spec Verif.CloudUrl.Spec

/-! ### A target is read in one way only -/

theorem splitQuery_query : ∀ (a : List (Str × Str)), a ≠ [] → (∀ x ∈ a, ArgText x) → splitQuery (query a) = a
  | [], h, _ => absurd rfl h
  | [a], _, h => by
    obtain ⟨⟨h1, h2, -⟩, h3, -⟩ := h a (by simp)
    exact splitQuery_last h2 h1 h3
  | a :: b :: r, _, h => by
    obtain ⟨⟨h1, h2, -⟩, h3, -⟩ := h a (by simp)
    unfold query
    rw [splitQuery_cons (query (b :: r)) h2 h1 h3, splitQuery_query (b :: r) (by simp) (fun x hx => h x (List.mem_cons_of_mem _ hx))]

theorem split_segs : ∀ (rs : List Str), (∀ s ∈ rs, SegText s) → split 47 (rs.flatMap (47 :: ·)) = [] :: rs
  | [], _ => rfl
  | s :: rs, h => by
    have ih := split_segs rs (fun x hx => h x (List.mem_cons_of_mem _ hx))
    have hs := (h s (by simp)).1
    have e : ((s :: rs).flatMap (47 :: ·) : Str) = [] ++ 47 :: (s ++ rs.flatMap (47 :: ·)) := rfl
    rw [e, split_append _ (by simp)]
    cases rs with
    | nil => simp [split_none hs]
    | cons q qs =>
      have e2 : ((q :: qs).flatMap (47 :: ·) : Str) = 47 :: (q ++ qs.flatMap (47 :: ·)) := rfl
      rw [e2, split_append _ hs]
      rw [e2] at ih
      have := split_append (c := 47) (a := []) (q ++ qs.flatMap (47 :: ·)) (by simp)
      rw [List.nil_append] at this
      rw [this] at ih
      rw [(List.cons.inj ih).2]

theorem parse_target {rs : List Str} {ra : List (Str × Str)} (hs : ∀ s ∈ rs, SegText s) : parseQuery (target rs ra) = (rs.flatMap (47 :: ·), query ra) := by
  have h : (63 : UInt8) ∉ (rs.flatMap (47 :: ·) : Str) := by
    intro hx
    obtain ⟨s, hm, hx⟩ := List.mem_flatMap.mp hx
    rcases List.mem_cons.mp hx with e | e
    · exact absurd e (by decide)
    · exact (hs s hm).2.1 e
  unfold target
  split
  · rename_i e; rw [e, List.append_nil, parseQuery_none h]; rfl
  · exact parseQuery_append _ h

theorem query_ne_nil {a : List (Str × Str)} (h : a ≠ []) : query a ≠ [] := by
  rcases a with _ | ⟨a, _ | ⟨b, r⟩⟩
  · exact absurd rfl h
  · simp [query]
  · simp [query]

theorem forall₂_means : ∀ {rs s s' : List Str}, List.Forall₂ Means rs s → List.Forall₂ Means rs s' → s = s'
  | [], _, _, .nil, .nil => rfl
  | _ :: _, _, _, .cons h t, .cons h' t' => by rw [C36_unambiguous h h', forall₂_means t t']

theorem forall₂_means2 : ∀ {rs s s' : List (Str × Str)}, List.Forall₂ (fun r a => Means r.1 a.1 ∧ Means r.2 a.2) rs s → List.Forall₂ (fun r a => Means r.1 a.1 ∧ Means r.2 a.2) rs s' → s = s'
  | [], _, _, .nil, .nil => rfl
  | _ :: _, _, _, .cons h t, .cons h' t' => by rw [Prod.ext (C36_unambiguous h.1 h'.1) (C36_unambiguous h.2 h'.2), forall₂_means2 t t']

/-- **C101** What a server reads in a target is determined by it: so requests for different objects have different targets. -/
theorem C101_reads_unique {t : Str} {s s' : List Str} {a a' : List (Str × Str)} (h : Reads t s a) (h' : Reads t s' a') : s = s' ∧ a = a' := by
  obtain ⟨rs, ra, e, h1, h2, h3, h4⟩ := h
  obtain ⟨rs', ra', e', h1', h2', h3', h4'⟩ := h'
  have hp := parse_target (ra := ra) h1
  have hp' := parse_target (ra := ra') h1'
  rw [← e, e', hp'] at hp
  obtain ⟨q1, q2⟩ := Prod.mk.inj hp
  have hr : rs' = rs := by
    have a := split_segs rs h1
    have b := split_segs rs' h1'
    rw [← q1, b] at a
    exact (List.cons.inj a).2
  have ha : ra' = ra := by
    by_cases hn : ra = []
    · by_cases hn' : ra' = []
      · rw [hn, hn']
      · rw [hn] at q2; exact absurd q2 (query_ne_nil hn')
    · by_cases hn' : ra' = []
      · rw [hn'] at q2; exact absurd q2.symm (query_ne_nil hn)
      · rw [← splitQuery_query ra hn h2, ← splitQuery_query ra' hn' h2', q2]
  subst hr; subst ha
  exact ⟨forall₂_means h3 h3', forall₂_means2 h4 h4'⟩

/-! ### Parts of targets -/

theorem plain_seg {s : Str} (h : Plain s) : SegText s ∧ Means s s := ⟨⟨h.1, h.2.1, h.2.2.1⟩, means_self h.2.2.2⟩

theorem enc_seg (s : Str) : SegText (enc s) := ⟨enc_free s (by decide) (by decide), enc_free s (by decide) (by decide), enc_free s (by decide) (by decide)⟩

theorem enc_val (s : Str) : 38 ∉ enc s ∧ 35 ∉ enc s := ⟨enc_free s (by decide) (by decide), enc_free s (by decide) (by decide)⟩

theorem decimal_val (n : Nat) : (38 ∉ decimal n ∧ 35 ∉ decimal n) ∧ Means (decimal n) (decimal n) :=
  ⟨⟨decimal_free n (by decide), decimal_free n (by decide)⟩, means_self (decimal_free n (by decide))⟩

/-- An argument with a fixed name. -/
theorem named {k v w : Str} (hk : 61 ∉ k ∧ 38 ∉ k ∧ 35 ∉ k ∧ 37 ∉ k) (hv : 38 ∉ v ∧ 35 ∉ v) (hm : Means v w) : ArgText (k, v) ∧ Means k k ∧ Means v w :=
  ⟨⟨⟨hk.1, hk.2.1, hk.2.2.1⟩, hv⟩, means_self hk.2.2.2, hm⟩

/-- Adding an argument at the end. -/
theorem reads_arg {t : Str} {s : List Str} {a : List (Str × Str)} {k v w : Str} (h : Reads t s a) (ha : a ≠ []) (hk : 61 ∉ k ∧ 38 ∉ k ∧ 35 ∉ k ∧ 37 ∉ k) (hv : 38 ∉ v ∧ 35 ∉ v) (hm : Means v w) :
    Reads (t ++ (38 :: k ++ 61 :: v)) s (a ++ [(k, w)]) := by
  obtain ⟨rs, ra, e, h1, h2, h3, h4⟩ := h
  have hn : ra ≠ [] := by rintro rfl; cases h4; exact ha rfl
  obtain ⟨n1, n2⟩ := named hk hv hm
  have hq : ∀ (r : List (Str × Str)), r ≠ [] → query (r ++ [(k, v)]) = query r ++ (38 :: k ++ 61 :: v) := by
    intro r
    induction r with
    | nil => intro h; exact absurd rfl h
    | cons a r ih =>
      intro _
      cases r with
      | nil => simp [query]
      | cons b r =>
        have := ih (by simp)
        simp only [List.cons_append] at this ⊢
        simp only [query, this]
        simp [List.append_assoc]
  refine ⟨rs, ra ++ [(k, v)], ?_, h1, ?_, h3, ?_⟩
  · rw [e, target, target, if_neg hn, if_neg (by simp), hq ra hn]; simp [List.append_assoc]
  · intro x hx
    rcases List.mem_append.mp hx with hx | hx
    · exact h2 x hx
    · rw [List.mem_singleton.mp hx]; exact n1
  · exact List.rel_append h4 (List.Forall₂.cons n2 .nil)

theorem reads_first {t : Str} {s : List Str} {k v w : Str} (h : Reads t s []) (hk : 61 ∉ k ∧ 38 ∉ k ∧ 35 ∉ k ∧ 37 ∉ k) (hv : 38 ∉ v ∧ 35 ∉ v) (hm : Means v w) :
    Reads (t ++ (63 :: k ++ 61 :: v)) s [(k, w)] := by
  obtain ⟨rs, ra, e, h1, h2, h3, h4⟩ := h
  cases h4
  obtain ⟨n1, n2⟩ := named hk hv hm
  refine ⟨rs, [(k, v)], ?_, h1, by simpa using n1, h3, .cons n2 .nil⟩
  rw [e]; simp [target, query]

theorem reads_seg {t : Str} {s : List Str} {v w : Str} (h : Reads t s []) (hv : SegText v) (hm : Means v w) : Reads (t ++ 47 :: v) (s ++ [w]) [] := by
  obtain ⟨rs, ra, e, h1, h2, h3, h4⟩ := h
  cases h4
  refine ⟨rs ++ [v], [], ?_, ?_, by simp, List.rel_append h3 (.cons hm .nil), .nil⟩
  · rw [e]; simp [target]
  · intro x hx
    rcases List.mem_append.mp hx with hx | hx
    · exact h1 x hx
    · rw [List.mem_singleton.mp hx]; exact hv

theorem reads_nil : Reads [] [] [] := ⟨[], [], rfl, by simp, by simp, .nil, .nil⟩

theorem reads_plain {t : Str} {s : List Str} {v : Str} (h : Reads t s []) (hv : Plain v) : Reads (t ++ 47 :: v) (s ++ [v]) [] := reads_seg h (plain_seg hv).1 (plain_seg hv).2

/-- A text with its parts between slashes encoded one by one. -/
theorem path_pieces (g : UInt8 → Str) : ∀ key : Str, (47 : UInt8) :: key.flatMap (fun c => if c = 47 then [47] else g c) = ((split 47 key).map (·.flatMap g)).flatMap (47 :: ·)
  | [] => rfl
  | c :: key => by
    have ih := path_pieces g key
    unfold split
    rcases hs : split 47 key with _ | ⟨p, ps⟩
    · exact absurd hs (split_ne_nil 47 key)
    rw [hs] at ih
    by_cases hc : c = 47
    · rw [if_pos (by simp [hc])]
      have e : (([] :: p :: ps).map (·.flatMap g)).flatMap (47 :: ·) = (47 : UInt8) :: (((p :: ps).map (·.flatMap g)).flatMap (47 :: ·)) := rfl
      rw [e, ← ih, List.flatMap_cons, if_pos hc]; rfl
    · rw [if_neg (by simp [hc])]
      simp only [List.map_cons, List.flatMap_cons, List.cons_append] at ih ⊢
      rw [if_neg hc, List.append_assoc, ← (List.cons.inj ih).2]

theorem split_mem {d : UInt8} : ∀ {key p : Str}, p ∈ split d key → ∀ x ∈ p, x ∈ key ∧ x ≠ d
  | [], p, h, x, hx => by
    have : p = [] := by simpa [split] using h
    rw [this] at hx; cases hx
  | c :: key, p, h, x, hx => by
    unfold split at h
    split at h
    · rcases List.mem_cons.mp h with e | h
      · rw [e] at hx; cases hx
      · have := split_mem h x hx
        exact ⟨List.mem_cons_of_mem _ this.1, this.2⟩
    · rename_i hc
      have hc : c ≠ d := by simpa using hc
      rcases hs : split d key with _ | ⟨q, qs⟩
      · exact absurd hs (split_ne_nil d key)
      rw [hs] at h
      rcases List.mem_cons.mp h with e | h
      · rw [e] at hx
        rcases List.mem_cons.mp hx with e | hx
        · rw [e]; exact ⟨by simp, hc⟩
        · have := split_mem (key := key) (p := q) (by rw [hs]; simp) x hx
          exact ⟨List.mem_cons_of_mem _ this.1, this.2⟩
      · have := split_mem (key := key) (p := p) (by rw [hs]; exact List.mem_cons_of_mem _ h) x hx
        exact ⟨List.mem_cons_of_mem _ this.1, this.2⟩

theorem reads_segs (f : Str → Str) {t : Str} : ∀ {s : List Str} (ps : List Str), Reads t s [] → (∀ p ∈ ps, SegText (f p) ∧ Means (f p) p) → Reads (t ++ (ps.map f).flatMap (47 :: ·)) (s ++ ps) [] := by
  intro s ps
  induction ps generalizing t s with
  | nil => intro h _; simpa using h
  | cons p ps ih =>
    intro h hp
    have := ih (reads_seg h (hp p (by simp)).1 (hp p (by simp)).2) (fun q hq => hp q (List.mem_cons_of_mem _ hq))
    simpa using this

/-- The parts of a text between its slashes. -/
theorem split_path (key : Str) : (47 : UInt8) :: key = (split 47 key).flatMap (47 :: ·) := by
  have := path_pieces (fun c => [c]) key
  have e : (fun c : UInt8 => if c = 47 then [47] else [c]) = fun c => [c] := by
    funext c; split
    · rename_i h; rw [h]
    · rfl
  rw [e] at this
  simpa using this

/-! ### Google -/

/-- **C101** The target for reading an object of Google's storage: the server reads the bucket, and the object's name as one segment, for every name, with slashes and all. -/
theorem C101_gcs_get (bucket key : Str) (hb : Plain bucket) : ∃ u, gcsGetUrl bucket key = some u ∧ Reads u [lit "storage", lit "v1", lit "b", bucket, lit "o", key] [(lit "alt", lit "media")] := by
  refine ⟨_, by rw [gcsGetUrl, append_enc]; rfl, ?_⟩
  have h1 : Reads (lit "/storage" ++ lit "/v1" ++ lit "/b" ++ 47 :: bucket ++ lit "/o") [lit "storage", lit "v1", lit "b", bucket, lit "o"] [] :=
    reads_plain (v := lit "o") (reads_plain (reads_plain (v := lit "b") (reads_plain (v := lit "v1") (reads_plain (v := lit "storage") reads_nil (by decide +kernel)) (by decide +kernel)) (by decide +kernel)) hb) (by decide +kernel)
  have h2 := reads_first (k := lit "alt") (v := lit "media") (reads_seg h1 (enc_seg key) (enc_means key)) (by decide +kernel) (by decide +kernel) (means_self (by decide +kernel))
  have e1 : lit "/storage/v1/b/" = lit "/storage" ++ lit "/v1" ++ lit "/b" ++ [47] := by decide +kernel
  have e2 : lit "/o/" = lit "/o" ++ [47] := by decide +kernel
  have e3 : lit "?alt=media" = 63 :: lit "alt" ++ 61 :: lit "media" := by decide +kernel
  rw [e1, e2, e3]
  simpa [List.append_assoc] using h2

/-- **C101** The target that starts an upload. -/
theorem C101_gcs_upload (bucket key : Str) (hb : Plain bucket) :
    ∃ u, gcsUploadUrl bucket key = some u ∧ Reads u [lit "upload", lit "storage", lit "v1", lit "b", bucket, lit "o"] [(lit "uploadType", lit "resumable"), (lit "name", key)] := by
  refine ⟨_, by rw [gcsUploadUrl, append_enc], ?_⟩
  have h1 : Reads (lit "/upload" ++ lit "/storage" ++ lit "/v1" ++ lit "/b" ++ 47 :: bucket ++ lit "/o") [lit "upload", lit "storage", lit "v1", lit "b", bucket, lit "o"] [] :=
    reads_plain (v := lit "o") (reads_plain (reads_plain (v := lit "b") (reads_plain (v := lit "v1") (reads_plain (v := lit "storage") (reads_plain (v := lit "upload") reads_nil (by decide +kernel)) (by decide +kernel)) (by decide +kernel)) (by decide +kernel)) hb) (by decide +kernel)
  have h2 := reads_arg (k := lit "name") (reads_first (k := lit "uploadType") (v := lit "resumable") h1 (by decide +kernel) (by decide +kernel) (means_self (by decide +kernel))) (by simp) (by decide +kernel) (enc_val key) (enc_means key)
  have e1 : lit "/upload/storage/v1/b/" = lit "/upload" ++ lit "/storage" ++ lit "/v1" ++ lit "/b" ++ [47] := by decide +kernel
  have e2 : lit "/o?uploadType=resumable&name=" = lit "/o" ++ (63 :: lit "uploadType" ++ 61 :: lit "resumable") ++ (38 :: lit "name" ++ [61]) := by decide +kernel
  rw [e1, e2]
  simpa [List.append_assoc] using h2

/-- The optional arguments of a listing. -/
theorem optArg_reads {t d k value : Str} {s : List Str} {a : List (Str × Str)} (ht : t = 38 :: k ++ [61]) (h : Reads d s a) (ha : a ≠ []) (hk : 61 ∉ k ∧ 38 ∉ k ∧ 35 ∉ k ∧ 37 ∉ k) :
    ∃ u, optArg t value d = some u ∧ Reads u s (a ++ if value = [] then [] else [(k, value)]) := by
  unfold optArg
  split
  · exact ⟨d, rfl, by simpa using h⟩
  · refine ⟨_, append_enc value _, ?_⟩
    have := reads_arg h ha hk (enc_val value) (enc_means value)
    rw [ht]
    simpa [List.append_assoc] using this

theorem delim_reads {d x : Str} {s : List Str} {a : List (Str × Str)} {r : Bool} (hx : x = 38 :: lit "delimiter" ++ 61 :: lit "%2f" ∨ x = 38 :: lit "delimiter" ++ 61 :: lit "%2F") (h : Reads d s a) (ha : a ≠ []) :
    Reads (d ++ if r then [] else x) s (a ++ if r then [] else [(lit "delimiter", lit "/")]) := by
  cases r with
  | true => simpa using h
  | false =>
    have m1 : Means (lit "%2f") (lit "/") := .esc (a := 50) (b := 102) (x := 2) (y := 15) (by unfold Hex; decide) (by unfold Hex; decide) (by decide) .nil
    have m2 : Means (lit "%2F") (lit "/") := .esc (a := 50) (b := 70) (x := 2) (y := 15) (by unfold Hex; decide) (by unfold Hex; decide) (by decide) .nil
    rcases hx with e | e
    · rw [e]; exact reads_arg (k := lit "delimiter") h ha (by decide +kernel) (by decide +kernel) m1
    · rw [e]; exact reads_arg (k := lit "delimiter") h ha (by decide +kernel) (by decide +kernel) m2

/-- **C101** The target for listing: the server reads the prefix, the page token and the limit that were given. -/
theorem C101_gcs_list (bucket pre : Str) (recursive : Bool) (max : Nat) (token : Str) (hb : Plain bucket) : ∃ u, gcsListUrl bucket pre recursive max token = some u ∧
    Reads u [lit "storage", lit "v1", lit "b", bucket, lit "o"] ([(lit "maxResults", decimal max), (lit "prefix", pre)] ++ (if recursive then [] else [(lit "delimiter", lit "/")]) ++ if token = [] then [] else [(lit "pageToken", token)]) := by
  have h1 : Reads (lit "/storage" ++ lit "/v1" ++ lit "/b" ++ 47 :: bucket ++ lit "/o") [lit "storage", lit "v1", lit "b", bucket, lit "o"] [] :=
    reads_plain (v := lit "o") (reads_plain (reads_plain (v := lit "b") (reads_plain (v := lit "v1") (reads_plain (v := lit "storage") reads_nil (by decide +kernel)) (by decide +kernel)) (by decide +kernel)) hb) (by decide +kernel)
  have h2 := reads_arg (k := lit "prefix") (reads_first (k := lit "maxResults") h1 (by decide +kernel) (decimal_val max).1 (decimal_val max).2) (by simp) (by decide +kernel) (enc_val pre) (enc_means pre)
  have h3 := delim_reads (r := recursive) (x := lit "&delimiter=%2f") (Or.inl (by decide +kernel)) h2 (by simp)
  obtain ⟨u, hu, hr⟩ := optArg_reads (t := lit "&pageToken=") (k := lit "pageToken") (value := token) (by decide +kernel) h3 (by simp) (by decide +kernel)
  refine ⟨u, ?_, hr⟩
  have e1 : lit "/storage/v1/b/" = lit "/storage" ++ lit "/v1" ++ lit "/b" ++ [47] := by decide +kernel
  have e2 : lit "/o?maxResults=" = lit "/o" ++ (63 :: lit "maxResults" ++ [61]) := by decide +kernel
  have e3 : lit "&prefix=" = 38 :: lit "prefix" ++ [61] := by decide +kernel
  rw [← hu, gcsListUrl, append_enc, Option.bind_some, e1, e2, e3]
  simp [List.append_assoc]

/-! ### Azure -/

/-- **C101** The target of a blob of Azure's storage: after the prefix of the account, the server reads the container and the parts of the name between its slashes. -/
theorem C101_azure_object (acct : List Str) (container key : Str) (ha : ∀ s ∈ acct, Plain s) :
    ∃ u ks, azureObjectUrl (acct.flatMap (47 :: ·)) container key = some u ∧ Reads u (acct ++ container :: ks) [] ∧ (47 : UInt8) :: key = ks.flatMap (47 :: ·) := by
  refine ⟨_, split 47 key, by rw [azureObjectUrl, append_enc, Option.bind_some, appendUrlEncodedPath, joinEnc_split], ?_, split_path key⟩
  have h1 : Reads (acct.flatMap (47 :: ·)) acct [] := by
    have := reads_segs id acct reads_nil (fun p hp => plain_seg (ha p hp))
    simpa using this
  have h2 := reads_segs enc (split 47 key) (reads_seg h1 (enc_seg container) (enc_means container)) (fun p _ => ⟨enc_seg p, enc_means p⟩)
  have e := path_pieces encByte key
  have e' : (split 47 key).map enc = (split 47 key).map (·.flatMap encByte) := rfl
  rw [e', ← e] at h2
  have e2 : encP key = key.flatMap (fun c => if c = 47 then [47] else encByte c) := rfl
  rw [e2]
  simpa [List.append_assoc] using h2

/-- **C101** The target for listing a container whose name stands for itself. -/
theorem C101_azure_list (acct : List Str) (container pre : Str) (recursive : Bool) (max : Nat) (token : Str) (ha : ∀ s ∈ acct, Plain s) (hc : Plain container) :
    ∃ u, azureListUrl (acct.flatMap (47 :: ·)) container pre recursive max token = some u ∧
      Reads u (acct ++ [container]) ([(lit "restype", lit "container"), (lit "comp", lit "list"), (lit "maxresults", decimal max)] ++ (if pre = [] then [] else [(lit "prefix", pre)]) ++
        (if recursive then [] else [(lit "delimiter", lit "/")]) ++ if token = [] then [] else [(lit "marker", token)]) := by
  have h1 : Reads (acct.flatMap (47 :: ·)) acct [] := by
    have := reads_segs id acct reads_nil (fun p hp => plain_seg (ha p hp))
    simpa using this
  have h2 := reads_first (k := lit "restype") (v := lit "container") (reads_plain h1 hc) (by decide +kernel) (by decide +kernel) (means_self (by decide +kernel))
  have h3 := reads_arg (k := lit "comp") (v := lit "list") h2 (by simp) (by decide +kernel) (by decide +kernel) (means_self (by decide +kernel))
  have h4 := reads_arg (k := lit "maxresults") h3 (by simp) (by decide +kernel) (decimal_val max).1 (decimal_val max).2
  obtain ⟨u, hu, hr⟩ := optArg_reads (t := lit "&prefix=") (k := lit "prefix") (value := pre) (by decide +kernel) h4 (by simp) (by decide +kernel)
  have h5 := delim_reads (r := recursive) (x := lit "&delimiter=%2f") (Or.inl (by decide +kernel)) hr (by simp)
  obtain ⟨w, hw, hr⟩ := optArg_reads (t := lit "&marker=") (k := lit "marker") (value := token) (by decide +kernel) h5 (by simp) (by decide +kernel)
  refine ⟨w, ?_, by simpa using hr⟩
  have e1 : lit "?restype=container&comp=list" = (63 :: lit "restype" ++ 61 :: lit "container") ++ (38 :: lit "comp" ++ 61 :: lit "list") := by decide +kernel
  have e2 : lit "&maxresults=" = 38 :: lit "maxresults" ++ [61] := by decide +kernel
  rw [← hw, azureListUrl, e1, e2]
  have : (acct.flatMap (47 :: ·) ++ [47] ++ container ++ ((63 :: lit "restype" ++ 61 :: lit "container") ++ (38 :: lit "comp" ++ 61 :: lit "list")) ++ (38 :: lit "maxresults" ++ [61]) ++ decimal max : Str) =
    acct.flatMap (47 :: ·) ++ 47 :: container ++ (63 :: lit "restype" ++ 61 :: lit "container") ++ (38 :: lit "comp" ++ 61 :: lit "list") ++ (38 :: lit "maxresults" ++ 61 :: decimal max) := by simp [List.append_assoc]
  rw [this, hu]; rfl

/-- **C101** Blocks of one blob have different names. -/
theorem C101_block_ids {i j : Nat} (h : blockId i = blockId j) : i = j := by
  have hi : value (blockId i) = i := by rw [blockId, value_zeros, decimal_value]
  have hj : value (blockId j) = j := by rw [blockId, value_zeros, decimal_value]
  rw [← hi, ← hj, h]

/-- **C101** The names of the first 9999 blocks have the four characters that make them all equally long, as Azure requires; later ones do not. -/
theorem C101_block_id_length (i : Nat) : (blockId i).length = 4 ↔ i < 10000 := by
  unfold blockId
  rw [List.length_append, List.length_replicate]
  constructor
  · intro h
    by_contra hc
    have := decimal_length_ge 4 i (by omega)
    omega
  · intro h
    have := decimal_length 4 i (by decide) (by omega)
    omega

/-! ### Amazon -/

/-- The segments before the key. -/
def s3Segs (virtualHosted : Bool) (bucket : Str) : List Str := if virtualHosted then [] else [bucket]

/-- **C101, part** The target of an object of Amazon's storage names the object if its key has no `?`, `#` and `%`. Missing: such keys, see below. -/
theorem C101_s3_object_partial (vh : Bool) (bucket key : Str) (hb : Plain bucket) (hk : 63 ∉ key ∧ 35 ∉ key ∧ 37 ∉ key) :
    ∃ ks, Reads (s3ObjectPath vh bucket key) (s3Segs vh bucket ++ ks) [] ∧ (47 : UInt8) :: key = ks.flatMap (47 :: ·) := by
  refine ⟨split 47 key, ?_, split_path key⟩
  have hp : ∀ p ∈ split 47 key, SegText (id p) ∧ Means (id p) p := fun p hp => plain_seg
    ⟨fun h => (split_mem hp _ h).2 rfl, fun h => hk.1 (split_mem hp _ h).1, fun h => hk.2.1 (split_mem hp _ h).1, fun h => hk.2.2 (split_mem hp _ h).1⟩
  have el : lit "/" = [47] := by decide +kernel
  cases vh with
  | true =>
    have := reads_segs id (split 47 key) reads_nil hp
    rw [List.map_id, ← split_path] at this
    simpa [s3ObjectPath, s3Segs, el] using this
  | false =>
    have := reads_segs id (split 47 key) (reads_plain reads_nil hb) hp
    rw [List.map_id, ← split_path] at this
    simpa [s3ObjectPath, s3Segs, el, List.append_assoc] using this

/-- Disagreement: a key is not encoded. The target for the key `a?b=c` is that of the object `a`. -/
theorem C101_s3_question_mark : Reads (s3ObjectPath true [] (lit "a?b=c")) [lit "a"] [(lit "b", lit "c")] := by
  have := reads_first (k := lit "b") (v := lit "c") (reads_plain (v := lit "a") reads_nil (by decide +kernel)) (by decide +kernel) (by decide +kernel) (means_self (by decide +kernel))
  have e : s3ObjectPath true [] (lit "a?b=c") = [] ++ 47 :: lit "a" ++ (63 :: lit "b" ++ 61 :: lit "c") := by decide +kernel
  rw [e]; exact this

/-- Disagreement: the target for the key `%41` is that of the object `A`. -/
theorem C101_s3_percent : Reads (s3ObjectPath true [] (lit "%41")) [lit "A"] [] := by
  have := reads_seg (v := lit "%41") (w := lit "A") reads_nil (by unfold SegText; decide +kernel) (.esc (a := 52) (b := 49) (x := 4) (y := 1) (by unfold Hex; decide) (by unfold Hex; decide) (by decide) .nil)
  have e : s3ObjectPath true [] (lit "%41") = [] ++ 47 :: lit "%41" := by decide +kernel
  rw [e]; exact this

/-- **C101** The target for listing. -/
theorem C101_s3_list (vh : Bool) (bucket pre : Str) (recursive : Bool) (max : Nat) (token : Str) (hb : Plain bucket) :
    ∃ u, s3ListUrl vh bucket pre recursive max token = some u ∧
      Reads u (if vh then [[]] else [bucket]) ([(lit "list-type", lit "2"), (lit "max-keys", decimal max)] ++ (if pre = [] then [] else [(lit "prefix", pre)]) ++
        (if recursive then [] else [(lit "delimiter", lit "/")]) ++ if token = [] then [] else [(lit "continuation-token", token)]) := by
  have h1 : Reads (if vh then [47] else 47 :: bucket) (if vh then [[]] else [bucket]) [] := by
    cases vh with
    | true => exact reads_plain (v := []) reads_nil (by unfold Plain; decide)
    | false => exact reads_plain reads_nil hb
  have h2 := reads_first (k := lit "list-type") (v := lit "2") h1 (by decide +kernel) (by decide +kernel) (means_self (by decide +kernel))
  have h3 := reads_arg (k := lit "max-keys") h2 (by simp) (by decide +kernel) (decimal_val max).1 (decimal_val max).2
  have hq : ∀ q, s3QueryPath vh bucket q = (if vh then [47] else 47 :: bucket) ++ 63 :: q := by
    have e1 : lit "/?" = [47, 63] := by decide +kernel
    have e2 : lit "/" = [47] := by decide +kernel
    have e3 : lit "?" = [63] := by decide +kernel
    intro q; cases vh <;> simp [s3QueryPath, e1, e2, e3]
  obtain ⟨u, hu, hr⟩ := optArg_reads (t := lit "&prefix=") (k := lit "prefix") (value := pre) (by decide +kernel) h3 (by simp) (by decide +kernel)
  have h5 := delim_reads (r := recursive) (x := lit "&delimiter=%2F") (Or.inr (by decide +kernel)) hr (by simp)
  obtain ⟨w, hw, hr⟩ := optArg_reads (t := lit "&continuation-token=") (k := lit "continuation-token") (value := token) (by decide +kernel) h5 (by simp) (by decide +kernel)
  refine ⟨w, ?_, by simpa using hr⟩
  have e1 : lit "list-type=2&max-keys=" = (lit "list-type" ++ 61 :: lit "2") ++ (38 :: lit "max-keys" ++ [61]) := by decide +kernel
  rw [← hw, s3ListUrl]
  have hu2 : u = (if vh then [47] else 47 :: bucket) ++ 63 :: (lit "list-type=2&max-keys=" ++ decimal max ++ if pre = [] then [] else lit "&prefix=" ++ enc pre) := by
    unfold optArg at hu
    rw [e1]
    split at hu <;> rename_i hpre
    · rw [if_pos hpre]; rw [← Option.some.inj hu]; simp [List.append_assoc]
    · rw [if_neg hpre]; rw [append_enc] at hu; rw [← Option.some.inj hu]; simp [List.append_assoc]
  have hu3 : optArg (lit "&prefix=") pre (lit "list-type=2&max-keys=" ++ decimal max) = some (lit "list-type=2&max-keys=" ++ decimal max ++ if pre = [] then [] else lit "&prefix=" ++ enc pre) := by
    unfold optArg
    split
    · simp
    · rw [append_enc]; simp [List.append_assoc]
  rw [hu3, Option.bind_some, hq, hu2]
  simp [List.append_assoc]

/-! ### The signature of Amazon -/

theorem encByte_strict : ∀ c : UInt8, (¬ c ∈ lit "!*()" → encByte c = (if Unreserved c then [c] else hexPair c)) ∧ (c ∈ lit "!*()" → encByte c = [c] ∧ ¬ Unreserved c ∧ c ≠ 37 ∧ c ≠ 47) :=
  fun c => all_bytes (P := fun c => (¬ c ∈ lit "!*()" → encByte c = (if Unreserved c then [c] else hexPair c)) ∧ (c ∈ lit "!*()" → encByte c = [c] ∧ ¬ Unreserved c ∧ c ≠ 37 ∧ c ≠ 47)) (by decide +kernel) c

theorem encP_strict : ∀ s : Str, encP s = uriEncode true s ↔ ∀ c ∈ s, c ∉ lit "!*()"
  | [] => by simp [encP, uriEncode]
  | c :: s => by
    have ih := encP_strict s
    have e1 : encP (c :: s) = (if c = 47 then [47] else encByte c) ++ encP s := rfl
    have e2 : uriEncode true (c :: s) = (if Unreserved c ∨ (true = true ∧ c = 47) then [c] else hexPair c) ++ uriEncode true s := rfl
    obtain ⟨a, b⟩ := encByte_strict c
    rw [e1, e2]
    by_cases hc : c ∈ lit "!*()"
    · obtain ⟨b1, b2, b3, b4⟩ := b hc
      rw [if_neg b4, b1, if_neg (by simp [b2, b4])]
      constructor
      · intro h; exact absurd (List.cons.inj h).1 b3
      · intro h; exact absurd hc (h c (by simp))
    · have e3 : (if c = 47 then [47] else encByte c) = (if Unreserved c ∨ (true = true ∧ c = 47) then [c] else hexPair c) := by
        by_cases h : c = 47
        · simp [h]
        · simp [h, a hc]
      rw [e3, List.append_cancel_left_eq, ih]
      simp [hc]

/-- **C101** The path that is signed for an object is the one AWS prescribes, if and only if neither the key nor the name of the bucket has one of the characters `!*()`. (The path as AWS sees it is the decoded path, so this says
something about keys whose target names them: without `?` and `%`.) -/
theorem C101_s3_signed_path (vh : Bool) (bucket key : Str) (hb : Plain bucket) (hk : 63 ∉ key) :
    signedPath (s3ObjectPath vh bucket key) = some (uriEncode true (s3ObjectPath vh bucket key)) ↔ ∀ c ∈ s3ObjectPath vh bucket key, c ∉ lit "!*()" := by
  have el : lit "/" = [47] := by decide +kernel
  have hq : 63 ∉ s3ObjectPath vh bucket key := by
    have := hb.2.1
    cases vh <;> simp [s3ObjectPath, el, hk, this]
  rw [← encP_strict, signedPath, parseQuery_none hq, canonicalUri]
  have hc : (if s3ObjectPath vh bucket key = [] ∨ s3ObjectPath vh bucket key = lit "/" then some (lit "/") else joinEnc (split 47 (s3ObjectPath vh bucket key)) []) = some (encP (s3ObjectPath vh bucket key)) := by
    split
    · rename_i h
      rcases h with h | h
      · cases vh <;> simp [s3ObjectPath, el] at h
      · rw [h]; decide +kernel
    · exact joinEnc_split _ _
  simp only []
  rw [hc, Option.some.injEq]

/-- Disagreement: for the key `a(1)` the signed path is not the prescribed one, so S3 refuses the request. -/
theorem C101_s3_signature_differs : signedPath (s3ObjectPath true [] (lit "a(1)")) = some (lit "/a(1)") ∧ uriEncode true (s3ObjectPath true [] (lit "a(1)")) = lit "/a%281%29" := by
  constructor <;> decide +kernel

theorem strLe_total : ∀ a b : Str, strLe a b = true ∨ strLe b a = true
  | [], _ => Or.inl rfl
  | _ :: _, [] => Or.inr rfl
  | a :: s, b :: t => by
    unfold strLe
    by_cases h : a < b
    · simp [h]
    · by_cases h2 : b < a
      · simp [h2]
      · simpa [h, h2] using strLe_total s t

theorem strLe_trans : ∀ a b c : Str, strLe a b = true → strLe b c = true → strLe a c = true
  | [], _, _, _, _ => rfl
  | _ :: _, [], _, h, _ => by simp [strLe] at h
  | _ :: _, _ :: _, [], _, h => by simp [strLe] at h
  | a :: s, b :: t, c :: u, h1, h2 => by
    have ih := strLe_trans s t u
    unfold strLe at h1 h2 ⊢
    simp only [UInt8.lt_iff_toNat_lt] at h1 h2 ⊢
    split at h1 <;> split at h2 <;> (try split at h1) <;> (try split at h2) <;> (try (cases h1; done)) <;> (try (cases h2; done))
    all_goals first
      | (rw [if_pos (by omega)])
      | (rw [if_neg (by omega), if_neg (by omega)]; exact ih h1 h2)

theorem strLe_antisymm : ∀ a b : Str, strLe a b = true → strLe b a = true → a = b
  | [], [], _, _ => rfl
  | [], _ :: _, _, h => by simp [strLe] at h
  | _ :: _, [], h, _ => by simp [strLe] at h
  | a :: s, b :: t, h1, h2 => by
    have ih := strLe_antisymm s t
    unfold strLe at h1 h2
    simp only [UInt8.lt_iff_toNat_lt] at h1 h2
    split at h1
    · rw [if_neg (by omega), if_pos (by omega)] at h2; cases h2
    · split at h1
      · cases h1
      · rw [if_neg (by omega), if_neg (by omega)] at h2
        rw [ih h1 h2, UInt8.toNat_inj.mp (show a.toNat = b.toNat by omega)]

theorem argLe_total (a b : Str × Str) : (argLe a b || argLe b a) = true := by
  unfold argLe
  by_cases h : a.1 = b.1
  · simpa [h] using strLe_total a.2 b.2
  · simpa [h, Ne.symm h] using strLe_total a.1 b.1

theorem argLe_trans (a b c : Str × Str) (h1 : argLe a b = true) (h2 : argLe b c = true) : argLe a c = true := by
  unfold argLe at *
  by_cases e1 : a.1 = b.1
  · by_cases e2 : b.1 = c.1
    · rw [if_pos e1] at h1; rw [if_pos e2] at h2; rw [if_pos (e1.trans e2)]; exact strLe_trans _ _ _ h1 h2
    · rw [if_neg e2] at h2; rw [e1, if_neg e2]; exact h2
  · rw [if_neg e1] at h1
    by_cases e2 : b.1 = c.1
    · rw [← e2, if_neg e1]; exact h1
    · rw [if_neg e2] at h2
      split
      · rename_i e3
        rw [← e3] at h2
        exact absurd (strLe_antisymm _ _ h1 h2) e1
      · exact strLe_trans _ _ _ h1 h2

theorem joinWith_query : ∀ l : List (Str × Str), joinWith 38 (l.map fun a => a.1 ++ 61 :: a.2) = query l
  | [] => rfl
  | [a] => rfl
  | a :: b :: r => by
    have := joinWith_query (b :: r)
    simp only [List.map_cons] at this ⊢
    simp only [joinWith, query]
    rw [← this]

/-- Byte order on texts: a proper prefix comes first, otherwise the first different byte decides. -/
def Before (a b : Str) : Prop := (∃ t, b = a ++ t) ∨ ∃ p x y s t, a = p ++ x :: s ∧ b = p ++ y :: t ∧ x < y

theorem strLe_before : ∀ a b : Str, strLe a b = true ↔ Before a b
  | [], b => by simp [strLe, Before]
  | a :: s, [] => by simp [strLe, Before]
  | a :: s, b :: t => by
    have ih := strLe_before s t
    unfold strLe
    constructor
    · intro h
      split at h
      · exact Or.inr ⟨[], a, b, s, t, rfl, rfl, by assumption⟩
      · split at h
        · cases h
        · rename_i h1 h2
          have e : a = b := by
            rw [UInt8.lt_iff_toNat_lt] at h1 h2
            exact UInt8.toNat_inj.mp (by omega)
          subst e
          rcases ih.mp h with ⟨u, hu⟩ | ⟨p, x, y, s', t', h1, h2, h3⟩
          · exact Or.inl ⟨u, by rw [hu]; rfl⟩
          · exact Or.inr ⟨a :: p, x, y, s', t', by rw [h1]; rfl, by rw [h2]; rfl, h3⟩
    · intro h
      rcases h with ⟨u, hu⟩ | ⟨p, x, y, s', t', h1, h2, h3⟩
      · obtain ⟨e1, e2⟩ := List.cons.inj hu
        subst e1
        rw [if_neg (by simp), if_neg (by simp)]
        exact ih.mpr (Or.inl ⟨u, e2⟩)
      · cases p with
        | nil =>
          obtain ⟨e1, -⟩ := List.cons.inj h1
          obtain ⟨e2, -⟩ := List.cons.inj h2
          rw [if_pos (by rw [e1, e2]; exact h3)]
        | cons q p =>
          obtain ⟨e1, e1'⟩ := List.cons.inj h1
          obtain ⟨e2, e2'⟩ := List.cons.inj h2
          rw [e1, e2, if_neg (by simp), if_neg (by simp)]
          exact ih.mpr (Or.inr ⟨p, x, y, s', t', e1', e2', h3⟩)

/-- **C101** The query that is signed has the arguments of the request, as they are written in it, in the order of their names, and of their values where names are equal. -/
theorem C101_s3_signed_query {t : Str} {rs : List Str} {ra : List (Str × Str)} (ht : t = target rs ra) (hs : ∀ s ∈ rs, SegText s) (ha : ∀ a ∈ ra, ArgText a) :
    ∃ l, signedQuery t = query l ∧ l.Perm ra ∧ l.Pairwise fun a b => a.1 ≠ b.1 ∧ Before a.1 b.1 ∨ a.1 = b.1 ∧ Before a.2 b.2 := by
  rw [ht, signedQuery, parse_target hs]
  simp only [canonicalQuery]
  by_cases hn : ra = []
  · exact ⟨[], by rw [hn]; rfl, by rw [hn], .nil⟩
  · rw [if_neg (query_ne_nil hn), splitQuery_query ra hn ha, joinWith_query]
    refine ⟨_, rfl, List.mergeSort_perm _ _, ?_⟩
    refine (List.pairwise_mergeSort argLe_trans argLe_total ra).imp ?_
    intro a b h
    unfold argLe at h
    split at h
    · exact Or.inr ⟨by assumption, (strLe_before _ _).mp h⟩
    · exact Or.inl ⟨by assumption, (strLe_before _ _).mp h⟩

theorem enc_strict : ∀ s : Str, enc s = uriEncode false s ↔ ∀ c ∈ s, c ∉ lit "!*()"
  | [] => by simp [enc, uriEncode]
  | c :: s => by
    have ih := enc_strict s
    have e1 : enc (c :: s) = encByte c ++ enc s := rfl
    have e2 : uriEncode false (c :: s) = (if Unreserved c ∨ (false = true ∧ c = 47) then [c] else hexPair c) ++ uriEncode false s := rfl
    obtain ⟨a, b⟩ := encByte_strict c
    rw [e1, e2]
    by_cases hc : c ∈ lit "!*()"
    · obtain ⟨b1, b2, b3, b4⟩ := b hc
      rw [b1, if_neg (by simp [b2])]
      constructor
      · intro h; exact absurd (List.cons.inj h).1 b3
      · intro h; exact absurd hc (h c (by simp))
    · have e3 : encByte c = (if Unreserved c ∨ (false = true ∧ c = 47) then [c] else hexPair c) := by simp [a hc]
      rw [e3, List.append_cancel_left_eq, ih]
      simp [hc]

/-- **C101** A value that the client encodes is encoded as AWS prescribes if and only if it has none of the characters `!*()`; so listings under such prefixes are refused too. -/
theorem C101_s3_value (value d : Str) : appendUrlEncoded value d = some (d ++ uriEncode false value) ↔ ∀ c ∈ value, c ∉ lit "!*()" := by
  rw [append_enc, Option.some.injEq, List.append_cancel_left_eq]
  exact enc_strict value

/-! ### Concrete cases -/

example : gcsGetUrl (lit "bkt") (lit "a/b c?.txt") = some (lit "/storage/v1/b/bkt/o/a%2Fb%20c%3F.txt?alt=media") := by decide +kernel
example : Plain (lit "bkt") := by unfold Plain; decide +kernel
example : azureObjectUrl (lit "/acct") (lit "cnt") (lit "a/b c") = some (lit "/acct/cnt/a/b%20c") := by decide +kernel
example : signedPath (s3ObjectPath false (lit "bkt") (lit "a/b c")) = some (lit "/bkt/a/b%20c") := by decide +kernel
example : (s3ObjectPath false (lit "bkt") (lit "a/b c")) = lit "/bkt/a/b c" := by decide +kernel

end Verif.CloudUrl
