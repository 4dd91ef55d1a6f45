import Verif.CloudSign.Spec
import Mathlib.Data.List.Perm.Basic
/-! C105: signed requests are accepted. -/
namespace Verif.CloudSign
open Verif.Text hiding Byte
open Verif.Url Verif.Url.Spec Verif.CloudUrl Verif.CloudUrl.Spec Spec

theorem lower_low (s : Str) : lower s = low s := by
  unfold lower low
  refine List.map_congr_left fun c _ => ?_
  unfold lowerByte
  simp only [UInt8.le_iff_toNat_le]
  rfl

theorem hdrs_set (k v : Str) (r : Req) (n : Str) : hdrs (setHeader k v r) n = if low k = n then [(k, v)] else hdrs r n := by
  unfold hdrs setHeader
  simp only [List.filter_append, List.filter_filter, lower_low]
  split
  · rename_i h
    subst h
    have : (r.headers.filter fun h => decide (low h.1 = low k) && decide (low h.1 ≠ low k)) = [] := by
      rw [List.filter_eq_nil_iff]; intro a _; by_cases e : low a.1 = low k <;> simp [e]
    rw [this]; simp
  · rename_i h
    have e1 : (r.headers.filter fun h => decide (low h.1 = n) && decide (low h.1 ≠ low k)) = r.headers.filter fun h => decide (low h.1 = n) := by
      refine List.filter_congr fun a _ => ?_
      by_cases e : low a.1 = n
      · simp [e, Ne.symm h]
      · simp [e]
    rw [e1]; simp [h]

theorem get_hdrs (r : Req) (n : Str) : getHeader r n = ((hdrs r (low n)).head?).map (·.2) := by
  unfold getHeader hdrs
  rw [List.head?_filter]
  simp only [lower_low]

theorem header_set (k v : Str) (r : Req) : Header (setHeader k v r) (low k) v := ⟨k, by rw [hdrs_set, if_pos rfl]⟩

theorem header_set_ne {k v : Str} {r : Req} {n w : Str} (h : low k ≠ n) : Header (setHeader k v r) n w ↔ Header r n w := by
  unfold Header; rw [hdrs_set, if_neg h]

theorem unique_set {r : Req} (h : Unique r) (k v : Str) : Unique (setHeader k v r) := by
  intro n; rw [hdrs_set]; split
  · simp
  · exact h n

theorem header_get {r : Req} {n v : Str} (h : Header r (low n) v) : getHeader r n = some v := by
  obtain ⟨m, hm⟩ := h
  rw [get_hdrs, hm]; rfl

theorem header_of_mem {r : Req} (hu : Unique r) {h : Str × Str} (hm : h ∈ r.headers) : Header r (low h.1) h.2 := by
  have h1 : h ∈ hdrs r (low h.1) := List.mem_filter.mpr ⟨hm, by simp⟩
  have h2 := hu (low h.1)
  match hn : hdrs r (low h.1) with
  | [] => rw [hn] at h1; cases h1
  | [x] => rw [hn] at h1; exact ⟨h.1, by rw [hn, List.mem_singleton.mp h1]⟩
  | x :: y :: l => rw [hn] at h2; simp at h2

theorem mem_of_header {r : Req} {n v : Str} (h : Header r n v) : ∃ m, (m, v) ∈ r.headers ∧ low m = n := by
  obtain ⟨m, hm⟩ := h
  have : (m, v) ∈ hdrs r n := by rw [hm]; simp
  obtain ⟨h1, h2⟩ := List.mem_filter.mp this
  exact ⟨m, h1, by simpa using h2⟩

theorem unique_names {l : List (Str × Str)} : (∀ n, (l.filter fun h => low h.1 = n).length ≤ 1) → (l.map fun h => low h.1).Nodup := by
  induction l with
  | nil => intro _; exact .nil
  | cons a l ih =>
    intro h
    rw [List.map_cons, List.nodup_cons]
    refine ⟨?_, ih fun n => ?_⟩
    · intro hm
      obtain ⟨b, hb, e⟩ := List.mem_map.mp hm
      have := h (low a.1)
      rw [List.filter_cons, if_pos (by simp)] at this
      have h2 : b ∈ l.filter fun h => low h.1 = low a.1 := List.mem_filter.mpr ⟨hb, by simpa using e⟩
      have := List.length_pos_of_mem h2
      simp only [List.length_cons] at *
      omega
    · have := h n
      rw [List.filter_cons] at this
      split at this
      · simp only [List.length_cons] at this; omega
      · exact this

/-- A sort of pairs with different names has ascending names. -/
theorem sorted_names {l : List (Str × Str)} (hn : (l.map (·.1)).Nodup) : Ascending ((l.mergeSort argLe).map (·.1)) := by
  have hp := List.mergeSort_perm l argLe
  have h1 : ((l.mergeSort argLe).map (·.1)).Nodup := (hp.map (·.1)).nodup_iff.mpr hn
  have h2 := List.pairwise_mergeSort argLe_trans argLe_total l
  unfold Ascending
  rw [List.pairwise_map]
  rw [List.nodup_iff_pairwise_ne, List.pairwise_map] at h1
  refine (h2.and h1).imp ?_
  intro a b ⟨h3, h4⟩
  unfold argLe at h3
  rw [if_neg h4] at h3
  exact ⟨(strLe_before _ _).mp h3, h4⟩

theorem names_join : ∀ (l : List (Str × Str)) (s : Str), s ≠ [] → l.foldl (fun s h => (if s = [] then s else s ++ lit ";") ++ h.1) s = semicolons (s :: l.map (·.1))
  | [], s, _ => rfl
  | h :: l, s, hs => by
    rw [List.foldl_cons, if_neg hs, names_join l _ (by simp [hs])]
    cases l with
    | nil => simp [semicolons]
    | cons a l => simp [semicolons, List.append_assoc]

theorem signedNames_eq {l : List (Str × Str)} (h : ∀ x ∈ l, x.1 ≠ []) : signedNames l = semicolons (l.map (·.1)) := by
  unfold signedNames
  cases l with
  | nil => rfl
  | cons a l =>
    rw [List.foldl_cons, if_pos rfl, List.nil_append, names_join _ _ (h a (by simp))]
    rfl

theorem collapse_self : ∀ {s : Str}, ¬ [32, 32] <:+: s → collapse s = s
  | [], _ => rfl
  | [c], _ => rfl
  | c :: d :: s, h => by
    have ih : collapse (d :: s) = d :: s := collapse_self fun ⟨a, b, e⟩ => h ⟨c :: a, b, by simp [← e]⟩
    rw [collapse, ih, if_neg]
    rintro ⟨rfl, rfl⟩
    exact h ⟨[], s, rfl⟩

theorem signed_ne_nil {n : Str} (h : isSigned n = true) : n ≠ [] := by
  intro e; subst e; revert h; decide +kernel

theorem signed_iff {n : Str} : isSigned n = true ↔ n = lit "host" ∨ lit "x-amz-" <+: n := by
  unfold isSigned
  simp only [Bool.or_eq_true, beq_iff_eq, List.isPrefixOf_iff_prefix]
  constructor
  · rintro (((h | h) | h) | h)
    · exact Or.inl h
    · right; rw [h]; exact List.isPrefixOf_iff_prefix.mp (by decide +kernel)
    · right; rw [h]; exact List.isPrefixOf_iff_prefix.mp (by decide +kernel)
    · exact Or.inr h
  · rintro (h | h)
    · exact Or.inl (Or.inl (Or.inl h))
    · exact Or.inr h

theorem not_signed_auth : isSigned (lit "authorization") = false := by decide +kernel

theorem low_auth : low (lit "Authorization") = lit "authorization" := by decide +kernel
theorem low_date : low (lit "x-amz-date") = lit "x-amz-date" := by decide +kernel
theorem low_sha : low (lit "x-amz-content-sha256") = lit "x-amz-content-sha256" := by decide +kernel
theorem low_token : low (lit "x-amz-security-token") = lit "x-amz-security-token" := by decide +kernel
theorem ne1 : lit "x-amz-content-sha256" ≠ lit "x-amz-date" := by decide +kernel
theorem ne2 : lit "x-amz-security-token" ≠ lit "x-amz-date" := by decide +kernel
theorem ne3 : lit "x-amz-security-token" ≠ lit "x-amz-content-sha256" := by decide +kernel

/-- The headers after the new ones are set. -/
theorem amz_hdrs (c : Creds) (t : Str) (r : Req) (n : Str) : hdrs (withAmzHeaders c t r) n =
    if n = lit "x-amz-security-token" ∧ c.token ≠ [] then [(lit "x-amz-security-token", c.token)]
    else if n = lit "x-amz-content-sha256" then [(lit "x-amz-content-sha256", payloadHash r)]
    else if n = lit "x-amz-date" then [(lit "x-amz-date", t)] else hdrs r n := by
  unfold withAmzHeaders
  simp only
  split
  · rename_i h
    rw [hdrs_set, hdrs_set, hdrs_set, low_token, low_sha, low_date]
    simp only [h, and_true, eq_comm (a := n), ne_eq, not_false_eq_true]
  · rename_i h
    rw [hdrs_set, hdrs_set, low_sha, low_date]
    simp only [h, and_false, if_false, eq_comm (a := n)]

theorem amz_headers_mem (c : Creds) (t : Str) (r : Req) {n v : Str} : Header (withAmzHeaders c t r) n v ↔ ∃ m, hdrs (withAmzHeaders c t r) n = [(m, v)] := Iff.rfl

theorem amz_unique {r : Req} (h : Unique r) (c : Creds) (t : Str) : Unique (withAmzHeaders c t r) := by
  unfold withAmzHeaders
  simp only
  split
  · exact unique_set (unique_set (unique_set h _ _) _ _) _ _
  · exact unique_set (unique_set h _ _) _ _

theorem amz_same (c : Creds) (t : Str) (r : Req) : (withAmzHeaders c t r).method = r.method ∧ (withAmzHeaders c t r).target = r.target := by
  unfold withAmzHeaders; simp only; split <;> exact ⟨rfl, rfl⟩

/-- Values of headers in what is signed: from the request, from the credentials, or from the clock. -/
theorem amz_value {c : Creds} {t : Str} {r : Req} {h : Str × Str} (hm : h ∈ (withAmzHeaders c t r).headers) (hu : Unique r) :
    h.2 = c.token ∨ h.2 = payloadHash r ∨ h.2 = t ∨ h ∈ r.headers := by
  obtain ⟨m, hh⟩ := header_of_mem (amz_unique hu c t) hm
  have hx : h ∈ hdrs (withAmzHeaders c t r) (low h.1) := List.mem_filter.mpr ⟨hm, by simp⟩
  rw [amz_hdrs] at hx
  split at hx
  · exact Or.inl (by rw [List.mem_singleton.mp hx])
  · split at hx
    · exact Or.inr (Or.inl (by rw [List.mem_singleton.mp hx]))
    · split at hx
      · exact Or.inr (Or.inr (Or.inl (by rw [List.mem_singleton.mp hx])))
      · exact Or.inr (Or.inr (Or.inr (List.mem_filter.mp hx).1))

theorem signed_path {segs : List Str} {ra : List (Str × Str)} (hne : segs ≠ []) (hs : ∀ s ∈ segs, Plain s ∧ ∀ c ∈ s, c ∉ lit "!*()") :
    signedPath (target segs ra) = some (uriEncode true (segs.flatMap (47 :: ·))) := by
  rw [signedPath, parse_target fun s h => (plain_seg (hs s h).1).1]
  simp only
  have hp : ∀ c ∈ segs.flatMap ((47 : UInt8) :: ·), c ∉ lit "!*()" := by
    intro c hc
    obtain ⟨s, h1, h2⟩ := List.mem_flatMap.mp hc
    rcases List.mem_cons.mp h2 with e | h2
    · rw [e]; decide +kernel
    · exact (hs s h1).2 c h2
  rw [← (encP_strict _).mpr hp, canonicalUri]
  split
  · rename_i h
    rcases h with h | h
    · cases segs with
      | nil => exact absurd rfl hne
      | cons a l => simp at h
    · rw [h]; decide +kernel
  · exact joinEnc_split _ _

/-- The headers that are signed, with their trimmed values. -/
theorem signed_forall {r : Req} (hu : Unique r) (hd : ∀ h ∈ r.headers, isSigned (low h.1) = true → ¬ [32, 32] <:+: h.2) :
    List.Forall₂ (fun n v => isSigned n = true ∧ ∃ raw t, Header r n raw ∧ Stripped raw t ∧ v = collapse t) ((signedHeaders r).map (·.1)) ((signedHeaders r).map (·.2)) := by
  rw [List.forall₂_map_left_iff, List.forall₂_map_right_iff, List.forall₂_same]
  intro x hx
  rw [signedHeaders, List.mem_mergeSort] at hx
  obtain ⟨h, h1, h2⟩ := List.mem_map.mp hx
  obtain ⟨h3, h4⟩ := List.mem_filter.mp h1
  subst h2
  rw [lower_low] at h4
  refine ⟨by rw [lower_low]; exact h4, h.2, strip h.2, by rw [lower_low]; exact header_of_mem hu h3, strip_spec _, ?_⟩
  refine (collapse_self ?_).symm
  intro ⟨a, b, e⟩
  obtain ⟨⟨p, q, e2, -, -⟩, -, -⟩ := strip_spec h.2
  exact hd h h3 h4 ⟨p ++ a, b ++ q, by rw [e2, ← (show a ++ [32, 32] ++ b = strip h.2 from e)]; simp [List.append_assoc]⟩

/-- **C105** A request that is signed with a key of Amazon is accepted by the service, which knows the key and checks the signature as it documents: whatever the method, the headers and the arguments, if the names in the path and the
arguments are written as Amazon prescribes. Nothing else of the request is changed.
`Unique` holds for every request, because headers are set (`setHeader`), not added. -/
theorem C105_aws_accepted_partial (hmac : Str → Str → Str) (sha : Str → Str) (c : Creds) (region time : Str) (r : Req) (keys : Str → Option (Str × Str))
    (segs : List Str) (args : List (Str × Str)) (hkey : keys c.id = some (c.secret, c.token)) (hne : segs ≠ []) (hs : ∀ s ∈ segs, Plain s ∧ ∀ c ∈ s, c ∉ lit "!*()")
    (ht : r.target = target segs (args.map fun a => (uriEncode false a.1, uriEncode false a.2)))
    (ha : ∀ a ∈ args, ArgText (uriEncode false a.1, uriEncode false a.2))
    (hu : Unique r) (hhost : ∃ v, Header r (lit "host") v) (hstale : c.token = [] → hdrs r (lit "x-amz-security-token") = [])
    (hd : ∀ h ∈ r.headers, isSigned (low h.1) = true → ¬ [32, 32] <:+: h.2) (hdt : ¬ [32, 32] <:+: c.token) (hdd : ¬ [32, 32] <:+: time) :
    ∃ r', awsSign hmac sha c region time (time.take 8) r = some r' ∧ AwsAccepts hmac sha keys region (segs.flatMap (47 :: ·)) args r' ∧ r'.method = r.method ∧ r'.target = r.target ∧
      ∀ n, n ∉ [lit "authorization", lit "x-amz-date", lit "x-amz-content-sha256", lit "x-amz-security-token"] → hdrs r' n = hdrs r n := by
  obtain ⟨em, et⟩ := amz_same c time r
  have hu1 := amz_unique hu c time
  have hpath := signed_path (ra := args.map fun a => (uriEncode false a.1, uriEncode false a.2)) hne hs
  obtain ⟨l, hq1, hq2, hq3⟩ := C101_s3_signed_query (t := r.target) ht (fun s h => (plain_seg (hs s h).1).1) (by
    intro a hm
    obtain ⟨b, h1, h2⟩ := List.mem_map.mp hm
    subst h2; exact ha b h1)
  have hpay : ¬ [32, 32] <:+: payloadHash r := by
    unfold payloadHash
    cases hg : getHeader r (lit "x-amz-content-sha256") with
    | none =>
      intro hx
      have : (32 : UInt8) ∈ emptyBodyHash := hx.subset (by simp)
      revert this; decide +kernel
    | some v =>
      rw [get_hdrs, low_sha] at hg
      obtain ⟨h, hh, e⟩ := Option.map_eq_some_iff.mp hg
      have hm := List.mem_of_head? hh
      obtain ⟨h1, h2⟩ := List.mem_filter.mp hm
      have := hd h h1 (by rw [show low h.1 = lit "x-amz-content-sha256" by simpa using h2]; decide +kernel)
      rw [e] at this
      exact this
  have hd1 : ∀ h ∈ (withAmzHeaders c time r).headers, isSigned (low h.1) = true → ¬ [32, 32] <:+: h.2 := by
    intro h hm hsig
    rcases amz_value hm hu with e | e | e | e
    · rw [e]; exact hdt
    · rw [e]; exact hpay
    · rw [e]; exact hdd
    · exact hd h e hsig
  have hall := signed_forall hu1 hd1
  have hmem : ∀ n, n ∈ (signedHeaders (withAmzHeaders c time r)).map (·.1) ↔ isSigned n = true ∧ ∃ h ∈ (withAmzHeaders c time r).headers, low h.1 = n := by
    intro n
    unfold signedHeaders
    simp only [List.mem_map, List.mem_mergeSort, List.mem_filter, lower_low]
    constructor
    · rintro ⟨x, ⟨h, ⟨h1, h2⟩, rfl⟩, rfl⟩
      exact ⟨h2, h, h1, rfl⟩
    · rintro ⟨h1, h, h2, rfl⟩
      exact ⟨_, ⟨h, ⟨h2, h1⟩, rfl⟩, rfl⟩
  have hnames := signedNames_eq (l := signedHeaders (withAmzHeaders c time r)) fun x hx => signed_ne_nil ((hmem x.1).mp (List.mem_map_of_mem hx)).1
  obtain ⟨R, hR⟩ : ∃ R, R = withAmzHeaders c time r := ⟨_, rfl⟩
  obtain ⟨text, htext⟩ : ∃ text, text = R.method ++ lit "\n" ++ uriEncode true (segs.flatMap (47 :: ·)) ++ lit "\n" ++ query l ++ lit "\n" ++ canonicalHeaders (signedHeaders R) ++ lit "\n" ++ semicolons ((signedHeaders R).map (·.1)) ++ lit "\n" ++ payloadHash r := ⟨_, rfl⟩
  obtain ⟨C, hC⟩ : ∃ C : Claim, C = ⟨c.id, time.take 8, (signedHeaders R).map (·.1), hex (hmac (awsKey hmac c.secret (time.take 8) region) (lit "AWS4-HMAC-SHA256\n" ++ time ++ lit "\n" ++ time.take 8 ++ lit "/" ++ region ++ lit "/s3/aws4_request\n" ++ hex (sha text)))⟩ := ⟨_, rfl⟩
  have esep : lit "/s3/aws4_request\n" = lit "/s3/aws4_request" ++ lit "\n" := by decide +kernel
  have esep2 : lit "/s3/aws4_request, SignedHeaders=" = lit "/s3/aws4_request" ++ lit ", SignedHeaders=" := by decide +kernel
  have hsign : awsSign hmac sha c region time (time.take 8) r = some (setHeader (lit "Authorization") (claimText C region) R) := by
    have hcanon : canonicalRequest R (signedHeaders R) (payloadHash r) = some text := by
      rw [canonicalRequest, hR, et, ht, hpath, ← ht, hq1, hnames, htext, hR]
      rfl
    unfold awsSign
    simp only [← hR, hcanon, Option.map_some]
    rw [hC, claimText, esep, esep2]
    simp only [scope, hR, hnames, List.append_assoc, stringToSign, signingKey, awsKey]
    rfl
  have hset : ∀ n v, n ≠ lit "authorization" → (Header (setHeader (lit "Authorization") (claimText C region) R) n v ↔ Header R n v) := fun n v h => header_set_ne (by rw [low_auth]; exact h.symm)
  rw [← hR] at hall hmem hnames em et hu1
  refine ⟨_, hsign, ⟨C, c.secret, c.token, time, payloadHash r, text, ⟨lit "Authorization", ?_⟩, by rw [hC]; exact hkey, ?_, by rw [hC], ?_, ?_, ?_, ?_, ?_, ?_, ?_⟩, em, et, ?_⟩
  · rw [hdrs_set, if_pos low_auth]
  · rw [hset _ _ (by decide +kernel), hR]
    exact ⟨_, by rw [amz_hdrs, if_neg (fun h => ne2 h.1.symm), if_neg (fun h => ne1 h.symm), if_pos rfl]⟩
  · rw [hset _ _ (by decide +kernel), hR]
    exact ⟨_, by rw [amz_hdrs, if_neg (fun h => ne3 h.1.symm), if_pos rfl]⟩
  · by_cases htok : c.token = []
    · refine Or.inr ⟨htok, ?_⟩
      rw [hdrs_set, if_neg (by decide +kernel), hR, amz_hdrs, if_neg (fun h => h.2 htok), if_neg ne3, if_neg ne2]
      exact hstale htok
    · refine Or.inl ⟨htok, ?_⟩
      rw [hset _ _ (by decide +kernel), hR]
      exact ⟨_, by rw [amz_hdrs, if_pos ⟨rfl, htok⟩]⟩
  · rw [hC]
    refine sorted_names ?_
    rw [List.map_map]
    refine (unique_names (l := R.headers) hu1).sublist ?_
    have : ((fun x : Str × Str => x.1) ∘ fun h : Str × Str => (lower h.1, strip h.2)) = fun h => low h.1 := by funext h; simp [lower_low]
    rw [this]
    exact List.filter_sublist.map _
  · obtain ⟨v, hv⟩ := hhost
    have : Header R (lit "host") v := by
      rw [hR]
      obtain ⟨m, hm⟩ := hv
      exact ⟨m, by rw [amz_hdrs, if_neg (fun h => absurd h.1 (by decide +kernel)), if_neg (by decide +kernel), if_neg (by decide +kernel), hm]⟩
    obtain ⟨m, h1, h2⟩ := mem_of_header this
    rw [hC]
    exact (hmem _).mpr ⟨by decide +kernel, _, h1, h2⟩
  · intro h hm hp
    have hne : low h.1 ≠ lit "authorization" := fun e => by
      rw [e] at hp
      exact absurd (List.isPrefixOf_iff_prefix.mpr hp) (by decide +kernel)
    have hm' : h ∈ R.headers := by
      unfold setHeader at hm
      rcases List.mem_append.mp hm with hm | hm
      · exact (List.mem_filter.mp hm).1
      · rw [List.mem_singleton.mp hm] at hne
        exact absurd low_auth hne
    rw [hC]
    exact (hmem _).mpr ⟨signed_iff.mpr (Or.inr hp), h, hm', rfl⟩
  · refine ⟨l, (signedHeaders R).map (·.2), hq2, hq3, ?_, ?_⟩
    · have hn : C.names = (signedHeaders R).map (·.1) := by rw [hC]
      rw [hn]
      refine hall.imp ?_
      rintro n v ⟨h1, raw, t, h2, h3, h4⟩
      refine ⟨raw, t, (hset _ _ fun e => ?_).mpr h2, h3, h4⟩
      rw [e, not_signed_auth] at h1
      cases h1
    · rw [hC, htext]
      have : canonicalHeaders (signedHeaders R) = (((signedHeaders R).map (·.1)).zip ((signedHeaders R).map (·.2))).flatMap (fun h => h.1 ++ lit ":" ++ h.2 ++ lit "\n") := by
        rw [List.zip_map', canonicalHeaders]
        simp
      rw [this]
      rfl
  · rw [hC]
  · intro n hn
    simp only [List.mem_cons, List.not_mem_nil, or_false, not_or] at hn
    rw [hdrs_set, if_neg (by rw [low_auth]; exact fun e => hn.1 e.symm), hR, amz_hdrs]
    simp [hn]

/-! ### Signing again -/

/-- The headers but one. -/
def without (n : Str) (r : Req) : List (Str × Str) := r.headers.filter fun h => low h.1 ≠ n

theorem hdrs_without {r s : Req} {m : Str} (h : without m r = without m s) {n : Str} (hn : n ≠ m) : hdrs r n = hdrs s n := by
  have : ∀ x : Req, hdrs x n = (without m x).filter fun h => low h.1 = n := by
    intro x
    unfold hdrs without
    rw [List.filter_filter]
    refine List.filter_congr fun a _ => ?_
    by_cases e : low a.1 = n
    · simp [e, hn]
    · simp [e]
  rw [this, this, h]

theorem without_set_self (k v : Str) (r : Req) : without (low k) (setHeader k v r) = without (low k) r := by
  unfold without setHeader
  simp only [List.filter_append, List.filter_filter, lower_low]
  simp

theorem without_set (k v : Str) (r : Req) {m : Str} (h : low k ≠ m) : without m (setHeader k v r) = (without m r).filter (fun a => low a.1 ≠ low k) ++ [(k, v)] := by
  unfold without setHeader
  simp only [List.filter_append, List.filter_filter, lower_low]
  simp [h, Bool.and_comm]

/-- What is signed does not depend on an earlier signature. -/
theorem sign_without (hmac : Str → Str → Str) (sha : Str → Str) (c : Creds) (region time date : Str) {r s : Req} (hm : r.method = s.method) (ht : r.target = s.target)
    (hw : without (lit "authorization") (withAmzHeaders c time r) = without (lit "authorization") (withAmzHeaders c time s)) (hp : payloadHash r = payloadHash s) :
    awsSign hmac sha c region time date r = awsSign hmac sha c region time date s := by
  have hsig : signedHeaders (withAmzHeaders c time r) = signedHeaders (withAmzHeaders c time s) := by
    have : ∀ x : Req, x.headers.filter (fun h => isSigned (lower h.1)) = (without (lit "authorization") x).filter fun h => isSigned (lower h.1) := by
      intro x
      unfold without
      rw [List.filter_filter]
      refine List.filter_congr fun a _ => ?_
      by_cases e : low a.1 = lit "authorization"
      · simp [lower_low, e, not_signed_auth]
      · simp [e]
    rw [signedHeaders, this, hw, ← this, signedHeaders]
  obtain ⟨m1, t1⟩ := amz_same c time r
  obtain ⟨m2, t2⟩ := amz_same c time s
  unfold awsSign
  simp only
  rw [hp, hsig]
  unfold canonicalRequest
  rw [m1, t1, m2, t2, hm, ht]
  congr 1
  funext canon
  have : ∀ (x y : Req) (v : Str), x.method = y.method → x.target = y.target → without (lit "authorization") x = without (lit "authorization") y → setHeader (lit "Authorization") v x = setHeader (lit "Authorization") v y := by
    intro x y v h1 h2 h3
    unfold setHeader
    simp only [lower_low, low_auth, h1, h2]
    unfold without at h3
    rw [h3]
  exact this _ _ _ (by rw [m1, m2, hm]) (by rw [t1, t2, ht]) hw

theorem sign_amz {hmac : Str → Str → Str} {sha : Str → Str} {c : Creds} {region time date : Str} {r r1 : Req} (h : awsSign hmac sha c region time date r = some r1) :
    ∃ v, r1 = setHeader (lit "Authorization") v (withAmzHeaders c time r) := by
  unfold awsSign at h
  simp only at h
  obtain ⟨canon, -, h2⟩ := Option.map_eq_some_iff.mp h
  exact ⟨_, h2.symm⟩

theorem payload_hdrs {r s : Req} (h : hdrs r (lit "x-amz-content-sha256") = hdrs s (lit "x-amz-content-sha256")) : payloadHash r = payloadHash s := by
  unfold payloadHash; rw [get_hdrs, get_hdrs, low_sha, h]

theorem payload_amz (c : Creds) (t : Str) (r : Req) (v : Str) : payloadHash (setHeader (lit "Authorization") v (withAmzHeaders c t r)) = payloadHash r := by
  conv => lhs; unfold payloadHash
  rw [get_hdrs, low_sha, hdrs_set, if_neg (by decide +kernel), amz_hdrs, if_neg (fun h => ne3 h.1.symm), if_pos rfl]
  rfl

/-- **C105** Signing a request again, at a later time or with other credentials, gives the request that signing once would give; so a request can be signed when it is built and again after the credentials were refreshed. If the
credentials had a session token, the new ones must have one too. -/
theorem C105_aws_resign_partial (hmac : Str → Str → Str) (sha : Str → Str) (c1 c2 : Creds) (region time1 date1 time2 date2 : Str) (r r1 : Req) (h : awsSign hmac sha c1 region time1 date1 r = some r1)
    (hc : c1.token = [] ∨ c2.token ≠ []) : awsSign hmac sha c2 region time2 date2 r1 = awsSign hmac sha c2 region time2 date2 r := by
  obtain ⟨v, rfl⟩ := sign_amz h
  obtain ⟨m1, t1⟩ := amz_same c1 time1 r
  refine sign_without hmac sha c2 region time2 date2 m1 t1 ?_ (payload_amz _ _ _ _)
  have na : ∀ k, low k ∈ [lit "x-amz-date", lit "x-amz-content-sha256", lit "x-amz-security-token"] → low k ≠ lit "authorization" := by
    intro k hk e; rw [e] at hk; revert hk; decide +kernel
  have a1 := na (lit "x-amz-date") (by decide +kernel)
  have a2 := na (lit "x-amz-content-sha256") (by decide +kernel)
  have a3 := na (lit "x-amz-security-token") (by decide +kernel)
  have hs := payload_amz c1 time1 r v
  have e0 : without (lit "authorization") (setHeader (lit "Authorization") v (withAmzHeaders c1 time1 r)) = without (lit "authorization") (withAmzHeaders c1 time1 r) := by
    have := without_set_self (lit "Authorization") v (withAmzHeaders c1 time1 r)
    rwa [low_auth] at this
  have fl : ∀ (p q : Str → Bool) (l : List (Str × Str)), (l.filter fun a => p a.1).filter (fun a => q a.1) = (l.filter fun a => q a.1).filter fun a => p a.1 := by
    intro p q l; rw [List.filter_filter, List.filter_filter]; refine List.filter_congr fun a _ => Bool.and_comm _ _
  -- the headers after one signing, in terms of those of the request
  have key : ∀ (c : Creds) (t : Str) (x : Req), without (lit "authorization") (withAmzHeaders c t x) =
      (without (lit "authorization") x).filter (fun a => low a.1 ≠ lit "x-amz-date" ∧ low a.1 ≠ lit "x-amz-content-sha256" ∧ (c.token ≠ [] → low a.1 ≠ lit "x-amz-security-token")) ++
        ((lit "x-amz-date", t) :: (lit "x-amz-content-sha256", payloadHash x) :: if c.token ≠ [] then [(lit "x-amz-security-token", c.token)] else []) := by
    intro c t x
    unfold withAmzHeaders
    simp only
    split
    · rename_i h
      rw [without_set _ _ _ a3, without_set _ _ _ a2, without_set _ _ _ a1]
      simp only [List.filter_append, List.filter_filter, low_date, low_sha, low_token]
      have e1 : (lit "x-amz-date" ≠ lit "x-amz-security-token") := ne2.symm
      have e2 : (lit "x-amz-content-sha256" ≠ lit "x-amz-security-token") := ne3.symm
      simp [h, low_date, low_sha, e1, e2, ne1.symm, Bool.and_assoc, Bool.and_comm, Bool.and_left_comm]
    · rename_i h
      rw [without_set _ _ _ a2, without_set _ _ _ a1]
      simp only [List.filter_append, List.filter_filter, low_date, low_sha]
      have h : c.token = [] := by simpa using h
      simp [h, low_date, ne1.symm, Bool.and_comm]
  rw [key, key, e0, key, hs]
  congr 1
  rw [List.filter_append, List.filter_filter]
  have ed : decide (low (lit "x-amz-date") ≠ lit "x-amz-date" ∧ low (lit "x-amz-date") ≠ lit "x-amz-content-sha256" ∧ (c2.token ≠ [] → low (lit "x-amz-date") ≠ lit "x-amz-security-token")) = false := by simp [low_date]
  have es : decide (low (lit "x-amz-content-sha256") ≠ lit "x-amz-date" ∧ low (lit "x-amz-content-sha256") ≠ lit "x-amz-content-sha256" ∧ (c2.token ≠ [] → low (lit "x-amz-content-sha256") ≠ lit "x-amz-security-token")) = false := by simp [low_sha]
  rw [List.filter_cons_of_neg (by rw [ed]; simp), List.filter_cons_of_neg (by rw [es]; simp)]
  have et : (if c1.token ≠ [] then [(lit "x-amz-security-token", c1.token)] else []).filter (fun a => decide (low a.1 ≠ lit "x-amz-date" ∧ low a.1 ≠ lit "x-amz-content-sha256" ∧ (c2.token ≠ [] → low a.1 ≠ lit "x-amz-security-token"))) = [] := by
    by_cases h1 : c1.token = []
    · simp [h1]
    · have h2 : c2.token ≠ [] := hc.resolve_left h1
      simp [h1, h2, low_token]
  rw [et, List.append_nil]
  refine List.filter_congr fun a _ => ?_
  rcases hc with h1 | h2
  · by_cases h2 : c2.token = []
    · simp [h1, h2]
    · by_cases h3 : low a.1 = lit "x-amz-date" <;> by_cases h4 : low a.1 = lit "x-amz-content-sha256" <;> by_cases h5 : low a.1 = lit "x-amz-security-token" <;> simp [h1, h2, h3, h4, h5]
  · by_cases h1 : c1.token = []
    · by_cases h3 : low a.1 = lit "x-amz-date" <;> by_cases h4 : low a.1 = lit "x-amz-content-sha256" <;> by_cases h5 : low a.1 = lit "x-amz-security-token" <;> simp [h1, h2, h3, h4, h5]
    · by_cases h3 : low a.1 = lit "x-amz-date" <;> by_cases h4 : low a.1 = lit "x-amz-content-sha256" <;> by_cases h5 : low a.1 = lit "x-amz-security-token" <;> simp [h1, h2, h3, h4, h5]

/-- **C105** Disagreement: if the new credentials have no session token, the token of the old ones stays in the request, and no server that knows the new key accepts it. -/
theorem C105_aws_stale_token (hmac : Str → Str → Str) (sha : Str → Str) (c1 c2 : Creds) (region time1 date1 time2 date2 : Str) (r r1 r2 : Req) (h1 : awsSign hmac sha c1 region time1 date1 r = some r1)
    (h2 : awsSign hmac sha c2 region time2 date2 r1 = some r2) (hc1 : c1.token ≠ []) (hc2 : c2.token = []) (keys : Str → Option (Str × Str)) (hk : ∀ id s t, keys id = some (s, t) → t = [])
    (region' path : Str) (args : List (Str × Str)) : Header r2 (lit "x-amz-security-token") c1.token ∧ ¬ AwsAccepts hmac sha keys region' path args r2 := by
  obtain ⟨v1, rfl⟩ := sign_amz h1
  obtain ⟨v2, rfl⟩ := sign_amz h2
  have hh : hdrs (setHeader (lit "Authorization") v2 (withAmzHeaders c2 time2 (setHeader (lit "Authorization") v1 (withAmzHeaders c1 time1 r)))) (lit "x-amz-security-token") = [(lit "x-amz-security-token", c1.token)] := by
    rw [hdrs_set, if_neg (by decide +kernel), amz_hdrs, if_neg (fun h => h.2 hc2), if_neg ne3, if_neg ne2, hdrs_set, if_neg (by decide +kernel), amz_hdrs, if_pos ⟨rfl, hc1⟩]
  refine ⟨⟨_, hh⟩, ?_⟩
  rintro ⟨c, secret, token, time, payload, text, -, hkey, -, -, -, ht, -⟩
  have := hk _ _ _ hkey
  rcases ht with ⟨h, -⟩ | ⟨-, h⟩
  · exact h this
  · rw [hh] at h; cases h

/-! ### Azure -/

theorem low_xdate : low (lit "x-ms-date") = lit "x-ms-date" := by decide +kernel
theorem low_xver : low (lit "x-ms-version") = lit "x-ms-version" := by decide +kernel
theorem low_len : low (lit "Content-Length") = lit "content-length" := by decide +kernel

theorem xms_hdrs (date version : Str) (r : Req) (n : Str) : hdrs (withXmsHeaders date version r) n =
    if n = lit "x-ms-version" then [(lit "x-ms-version", version)] else if n = lit "x-ms-date" then [(lit "x-ms-date", date)] else hdrs r n := by
  unfold withXmsHeaders
  rw [hdrs_set, hdrs_set, low_xver, low_xdate]
  simp only [eq_comm (a := n)]

theorem query_args {rs : List Str} {ra : List (Str × Str)} (hs : ∀ s ∈ rs, SegText s) (ha : ∀ a ∈ ra, ArgText a) : queryArgs (target rs ra) = ra := by
  unfold queryArgs
  by_cases hn : ra = []
  · rw [if_neg, hn]
    intro hm
    unfold target at hm
    rw [if_pos hn, List.append_nil] at hm
    obtain ⟨s, h1, h2⟩ := List.mem_flatMap.mp hm
    rcases List.mem_cons.mp h2 with e | h2
    · cases e
    · exact (hs s h1).2.1 h2
  · rw [if_pos (by unfold target; rw [if_neg hn]; simp), parse_target hs]
    exact splitQuery_query ra hn ha

theorem canonArgs_eq : ∀ {l m : List (Str × Str)}, List.Forall₂ (fun (x a : Str × Str) => x.1 = a.1 ∧ x.2 ≠ [] ∧ x.2.length + 3 ≤ 2 ^ 32 ∧ Means x.2 a.2) l m →
    canonArgs l = some (m.flatMap fun a => lit "\n" ++ a.1 ++ lit ":" ++ a.2)
  | [], [], _ => rfl
  | x :: l, a :: m, h => by
    obtain ⟨⟨h1, h2, h3, h4⟩, ht⟩ := List.forall₂_cons.mp h
    have hd := (C36_decode_partial x.2 [] (.inl h2) h3 a.2).mpr ⟨a.2, h4, rfl⟩
    rw [canonArgs, canonArg, hd, canonArgs_eq ht]
    simp [h1]
  | [], _ :: _, h => by cases h
  | _ :: _, [], h => by cases h

/-- What a permutation of one side leaves related. -/
theorem forall₂_perm {R : Str × Str → Str × Str → Prop} {l l' m : List (Str × Str)} (h : List.Forall₂ R l m) (hp : l'.Perm l) : ∃ m', m'.Perm m ∧ List.Forall₂ R l' m' := by
  obtain ⟨m', h1, h2⟩ := List.perm_comp_forall₂ hp h
  exact ⟨m', h2, h1⟩

/-- **C105** A request that is signed with the key of an account of Azure is accepted by the service, which knows the key and checks the signature as it documents, if the request has none of the headers that the signature must cover besides
`Content-Length` and `x-ms-...`, no argument is empty, and names of arguments are in lower case and different. Nothing else of the request is changed. -/
theorem C105_azure_accepted_partial (hmac : Str → Str → Str) (b64 : Str → Str) (unb64 : Str → Option Str) (account key k date version : Str) (r : Req) (keys : Str → Option Str)
    (segs : List Str) (ra args : List (Str × Str)) (hkey : unb64 key = some k) (hacc : keys account = some k) (hs : ∀ s ∈ segs, SegText s) (ha : ∀ a ∈ ra, ArgText a) (ht : r.target = target segs ra)
    (hargs : List.Forall₂ (fun (x a : Str × Str) => x.1 = a.1 ∧ x.2 ≠ [] ∧ x.2.length + 3 ≤ 2 ^ 32 ∧ Means x.2 a.2) ra args) (hlow : ∀ a ∈ args, low a.1 = a.1) (hdis : (args.map (·.1)).Nodup)
    (hu : Unique r) (hnone : ∀ n ∈ [lit "content-encoding", lit "content-language", lit "content-md5", lit "content-type", lit "if-modified-since", lit "if-match", lit "if-none-match", lit "if-unmodified-since", lit "range"], hdrs r n = [])
    (hx : ∀ h ∈ r.headers, lit "x-ms-" <+: low h.1 → low h.1 = h.1 ∧ Stripped h.2 h.2) (hd : Stripped date date) (hv : Stripped version version) :
    ∃ r', azureSharedKey hmac b64 unb64 account key date version r = .ok r' ∧ AzureAccepts hmac b64 keys (segs.flatMap (47 :: ·)) args r' ∧ r'.method = r.method ∧ r'.target = r.target ∧
      ∀ n, n ∉ [lit "authorization", lit "x-ms-date", lit "x-ms-version"] → hdrs r' n = hdrs r n := by
  obtain ⟨R, hR⟩ : ∃ R, R = withXmsHeaders date version r := ⟨_, rfl⟩
  have huR : Unique R := by rw [hR]; exact unique_set (unique_set hu _ _) _ _
  have et : R.target = r.target := by rw [hR]; rfl
  have em : R.method = r.method := by rw [hR]; rfl
  have hxR : ∀ h ∈ R.headers, lit "x-ms-" <+: low h.1 → low h.1 = h.1 ∧ Stripped h.2 h.2 := by
    intro h hm hp
    have hm' : h ∈ hdrs R (low h.1) := List.mem_filter.mpr ⟨hm, by simp⟩
    rw [hR, xms_hdrs] at hm'
    split at hm'
    · rw [List.mem_singleton.mp hm']; exact ⟨low_xver, hv⟩
    · split at hm'
      · rw [List.mem_singleton.mp hm']; exact ⟨low_xdate, hd⟩
      · exact hx h (List.mem_filter.mp hm').1 hp
  have hlx : ∀ n : Str, lit "x-ms-" <+: n → lit "x-ms-" <+: low n := by
    rintro n ⟨q, rfl⟩
    exact ⟨low q, by unfold low; rw [List.map_append]; congr 1⟩
  -- the arguments
  obtain ⟨sorted, hp2, hf⟩ := forall₂_perm hargs (List.mergeSort_perm ra argLe)
  have hnames : ∀ {l m : List (Str × Str)}, List.Forall₂ (fun (x a : Str × Str) => x.1 = a.1 ∧ x.2 ≠ [] ∧ x.2.length + 3 ≤ 2 ^ 32 ∧ Means x.2 a.2) l m → l.map (·.1) = m.map (·.1) := by
    intro l m h
    induction h with
    | nil => rfl
    | cons h _ ih => rw [List.map_cons, List.map_cons, h.1, ih]
  have hcanon := canonArgs_eq hf
  have hlen : ∃ len, LengthText r len ∧ contentLength R = len ++ lit "\n" := by
    have e : getHeader R (lit "Content-Length") = ((hdrs r (lit "content-length")).head?).map (·.2) := by
      rw [get_hdrs, low_len, hR, xms_hdrs, if_neg (by decide +kernel), if_neg (by decide +kernel)]
    unfold contentLength
    rw [e]
    have h1 := hu (lit "content-length")
    match hh : hdrs r (lit "content-length"), h1 with
    | [], _ => exact ⟨[], Or.inl ⟨Or.inl ⟨rfl, hh⟩, by decide +kernel⟩, rfl⟩
    | [x], _ =>
      by_cases hz : x.2 = lit "0"
      · exact ⟨[], Or.inr ⟨rfl, x.1, by rw [hh, ← hz]⟩, by simp [hz]⟩
      · exact ⟨x.2, Or.inl ⟨Or.inr ⟨x.1, hh⟩, hz⟩, by simp [hz]⟩
    | x :: y :: l, h => simp at h
  obtain ⟨len, hlen1, hlen2⟩ := hlen
  obtain ⟨text, htext⟩ : ∃ text, text = R.method ++ lit "\n\n\n" ++ contentLength R ++ List.replicate 8 10 ++ canonicalHeaders (xmsHeaders R) ++ (lit "/" ++ account ++ segs.flatMap (47 :: ·) ++ sorted.flatMap fun a => lit "\n" ++ a.1 ++ lit ":" ++ a.2) := ⟨_, rfl⟩
  have hts : azureToSign account R = some text := by
    rw [azureToSign, et, ht, query_args hs ha, hcanon, parse_target hs, htext]
    rfl
  have htext2 : text = R.method ++ lit "\n" ++ [] ++ lit "\n" ++ [] ++ lit "\n" ++ len ++ lit "\n" ++ [] ++ lit "\n" ++ [] ++ lit "\n" ++ lit "\n" ++ [] ++ lit "\n" ++ [] ++ lit "\n" ++ [] ++ lit "\n" ++ [] ++ lit "\n" ++ [] ++ lit "\n" ++
      (xmsHeaders R).flatMap (fun h => h.1 ++ lit ":" ++ h.2 ++ lit "\n") ++ lit "/" ++ account ++ segs.flatMap (47 :: ·) ++ sorted.flatMap (fun a => lit "\n" ++ a.1 ++ lit ":" ++ a.2) := by
    have e1 : lit "\n\n\n" = lit "\n" ++ lit "\n" ++ lit "\n" := by decide +kernel
    have e2 : List.replicate 8 (10 : UInt8) = lit "\n" ++ lit "\n" ++ lit "\n" ++ lit "\n" ++ lit "\n" ++ lit "\n" ++ lit "\n" ++ lit "\n" := by decide +kernel
    rw [htext, hlen2, e1, e2]
    simp only [canonicalHeaders, List.append_assoc, List.append_nil, List.nil_append]
  have hset : ∀ n, n ≠ lit "authorization" → ∀ v, hdrs (setHeader (lit "Authorization") v R) n = hdrs R n := fun n h v => by rw [hdrs_set, if_neg (by rw [low_auth]; exact h.symm)]
  refine ⟨setHeader (lit "Authorization") (lit "SharedKey " ++ account ++ lit ":" ++ b64 (hmac k text)) R, ?_, ?_, em, et, ?_⟩
  · unfold azureSharedKey
    simp only [← hR, hkey, hts]
  · have hno : ∀ n ∈ [lit "content-encoding", lit "content-language", lit "content-md5", lit "content-type", lit "if-modified-since", lit "if-match", lit "if-none-match", lit "if-unmodified-since", lit "range"],
        n ≠ lit "authorization" ∧ n ≠ lit "x-ms-version" ∧ n ≠ lit "x-ms-date" := by decide +kernel
    have hopt : ∀ n ∈ [lit "content-encoding", lit "content-language", lit "content-md5", lit "content-type", lit "if-modified-since", lit "if-match", lit "if-none-match", lit "if-unmodified-since", lit "range"],
        OptHeader (setHeader (lit "Authorization") (lit "SharedKey " ++ account ++ lit ":" ++ b64 (hmac k text)) R) n [] := by
      intro n hn
      obtain ⟨a1, a2, a3⟩ := hno n hn
      exact Or.inl ⟨rfl, by rw [hset n a1, hR, xms_hdrs, if_neg a2, if_neg a3]; exact hnone n hn⟩
    refine ⟨account, k, [], [], len, [], [], [], [], [], [], [], xmsHeaders R, sorted, hacc, ⟨hopt _ (by simp), hopt _ (by simp), ?_, hopt _ (by simp), hopt _ (by simp)⟩,
      ⟨hopt _ (by simp), hopt _ (by simp), hopt _ (by simp), hopt _ (by simp), hopt _ (by simp)⟩, ⟨date, lit "x-ms-date", ?_⟩, ⟨?_, ?_⟩, ⟨?_, ?_⟩, lit "Authorization", ?_⟩
    · have e : ∀ v, hdrs (setHeader (lit "Authorization") v R) (lit "content-length") = hdrs r (lit "content-length") := fun v => by
        rw [hset _ (by decide +kernel), hR, xms_hdrs, if_neg (by decide +kernel), if_neg (by decide +kernel)]
      unfold LengthText OptHeader Header
      rw [e]
      exact hlen1
    · rw [hset _ (by decide +kernel), hR, xms_hdrs, if_neg (by decide +kernel), if_pos rfl]
    · refine sorted_names ?_
      have h1 := unique_names huR
      have h2 : ((R.headers.filter fun h => (lit "x-ms-").isPrefixOf h.1).map fun h => low h.1).Nodup := h1.sublist (List.filter_sublist.map _)
      have h3 : ((R.headers.filter fun h => (lit "x-ms-").isPrefixOf h.1).map fun h => low h.1) = (R.headers.filter fun h => (lit "x-ms-").isPrefixOf h.1).map (·.1) := by
        refine List.map_congr_left fun h hm => ?_
        obtain ⟨h4, h5⟩ := List.mem_filter.mp hm
        exact (hxR h h4 (hlx _ (List.isPrefixOf_iff_prefix.mp h5))).1
      rw [← h3]; exact h2
    · intro n v
      unfold xmsHeaders
      rw [List.mem_mergeSort, List.mem_filter, List.isPrefixOf_iff_prefix]
      constructor
      · rintro ⟨h1, h2⟩
        have h3 := hxR _ h1 (hlx _ h2)
        have h4 := header_of_mem huR h1
        rw [h3.1] at h4
        refine ⟨h2, v, ?_, h3.2⟩
        obtain ⟨m, hm⟩ := h4
        refine ⟨m, ?_⟩
        rw [hset n, hm]
        intro e
        have h2 : lit "x-ms-" <+: n := h2
        rw [e] at h2
        exact absurd (List.isPrefixOf_iff_prefix.mpr h2) (by decide +kernel)
      · rintro ⟨h2, raw, ⟨m, hm⟩, h3⟩
        rw [hset n (fun e => by rw [e] at h2; exact absurd (List.isPrefixOf_iff_prefix.mpr h2) (by decide +kernel))] at hm
        obtain ⟨m', h5, h6⟩ := mem_of_header ⟨m, hm⟩
        have h7 := hxR _ h5 (by rw [h6]; exact h2)
        rw [show m' = n from h7.1.symm.trans h6] at h5
        have : v = raw := (stripped_unique h3).trans (stripped_unique h7.2).symm
        rw [this]
        exact ⟨h5, h2⟩
    · have : (args.map fun a => (low a.1, a.2)) = args := by
        conv => rhs; rw [← List.map_id args]
        refine List.map_congr_left fun a h => ?_
        rw [hlow a h]; rfl
      rw [this]; exact hp2
    · rw [← hnames hf]
      refine sorted_names ?_
      rw [hnames hargs]; exact hdis
    · rw [hdrs_set, if_pos low_auth]
      refine congrArg (fun t => [(lit "Authorization", lit "SharedKey " ++ account ++ lit ":" ++ b64 (hmac k t))]) ?_
      exact htext2
  · intro n hn
    simp only [List.mem_cons, List.not_mem_nil, or_false, not_or] at hn
    rw [hset n hn.1, hR, xms_hdrs, if_neg hn.2.2, if_neg hn.2.1]

theorem xms_without (d v : Str) (x : Req) : without (lit "authorization") (withXmsHeaders d v x) =
    (without (lit "authorization") x).filter (fun a => low a.1 ≠ lit "x-ms-date" ∧ low a.1 ≠ lit "x-ms-version") ++ [(lit "x-ms-date", d), (lit "x-ms-version", v)] := by
  have e1 : lit "x-ms-date" ≠ lit "x-ms-version" := by decide +kernel
  unfold withXmsHeaders
  rw [without_set _ _ _ (by decide +kernel), without_set _ _ _ (by decide +kernel)]
  simp only [List.filter_append, List.filter_filter, low_xdate, low_xver]
  simp [low_xdate, e1, Bool.and_comm]

theorem set_auth {x y : Req} (v : Str) (h1 : x.method = y.method) (h2 : x.target = y.target) (h3 : without (lit "authorization") x = without (lit "authorization") y) :
    setHeader (lit "Authorization") v x = setHeader (lit "Authorization") v y := by
  unfold setHeader
  simp only [lower_low, low_auth, h1, h2]
  unfold without at h3
  rw [h3]

/-- Signing again sets the same headers. -/
theorem xms_again (d1 d2 v w : Str) (r : Req) :
    without (lit "authorization") (withXmsHeaders d2 v (setHeader (lit "Authorization") w (withXmsHeaders d1 v r))) = without (lit "authorization") (withXmsHeaders d2 v r) := by
  have e0 := without_set_self (lit "Authorization") w (withXmsHeaders d1 v r)
  rw [low_auth] at e0
  rw [xms_without, e0, xms_without, xms_without, List.filter_append, List.filter_filter]
  congr 1
  simp [low_xdate, low_xver]

/-- **C105** Signing a request of Azure again, at another time or with another key, gives what signing once would give. -/
theorem C105_azure_resign (hmac : Str → Str → Str) (b64 : Str → Str) (unb64 : Str → Option Str) (a1 k1 d1 a2 k2 d2 version : Str) (r r1 : Req) (h : azureSharedKey hmac b64 unb64 a1 k1 d1 version r = .ok r1) :
    azureSharedKey hmac b64 unb64 a2 k2 d2 version r1 = azureSharedKey hmac b64 unb64 a2 k2 d2 version r := by
  obtain ⟨w, rfl⟩ : ∃ w, r1 = setHeader (lit "Authorization") w (withXmsHeaders d1 version r) := by
    unfold azureSharedKey at h
    simp only at h
    split at h
    · cases h
    · split at h
      · cases h
      · cases h; exact ⟨_, rfl⟩
  have hw := xms_again d1 d2 version w r
  have hx : xmsHeaders (withXmsHeaders d2 version (setHeader (lit "Authorization") w (withXmsHeaders d1 version r))) = xmsHeaders (withXmsHeaders d2 version r) := by
    have : ∀ x : Req, x.headers.filter (fun h => (lit "x-ms-").isPrefixOf h.1) = (without (lit "authorization") x).filter fun h => (lit "x-ms-").isPrefixOf h.1 := by
      intro x
      unfold without
      rw [List.filter_filter]
      refine List.filter_congr fun a _ => ?_
      by_cases e : low a.1 = lit "authorization"
      · have hn : (lit "x-ms-").isPrefixOf a.1 = false := by
          by_contra hc
          obtain ⟨q, hq⟩ : lit "x-ms-" <+: a.1 := by simpa using hc
          rw [← hq] at e
          have : (low (lit "x-ms-" ++ q)).head? = some 120 := rfl
          rw [e] at this
          revert this; decide +kernel
        simp [e, hn]
      · simp [e]
    unfold xmsHeaders
    rw [this, hw, ← this]
  have hl : contentLength (withXmsHeaders d2 version (setHeader (lit "Authorization") w (withXmsHeaders d1 version r))) = contentLength (withXmsHeaders d2 version r) := by
    have e : getHeader (withXmsHeaders d2 version (setHeader (lit "Authorization") w (withXmsHeaders d1 version r))) (lit "Content-Length") = getHeader (withXmsHeaders d2 version r) (lit "Content-Length") := by
      rw [get_hdrs, get_hdrs, low_len, hdrs_without hw (by decide +kernel)]
    unfold contentLength
    rw [e]
  have hts : azureToSign a2 (withXmsHeaders d2 version (setHeader (lit "Authorization") w (withXmsHeaders d1 version r))) = azureToSign a2 (withXmsHeaders d2 version r) := by
    unfold azureToSign
    rw [hx, hl]
    rfl
  unfold azureSharedKey
  simp only [hts]
  split
  · rfl
  · split
    · rfl
    · exact congrArg Signed.ok (set_auth _ rfl rfl hw)

/-- **C105** A token of Azure or of Google is in the one `Authorization` header of the request, whatever was there before; signing again replaces it, and nothing else of the request depends on it. -/
theorem C105_bearer (token1 token2 d1 d2 version : Str) (r : Req) :
    Header (azureBearer token1 d1 version r) (lit "authorization") (lit "Bearer " ++ token1) ∧ Header (gcpSign token1 r) (lit "authorization") (lit "Bearer " ++ token1) ∧
    (∀ n, n ∉ [lit "authorization", lit "x-ms-date", lit "x-ms-version"] → hdrs (azureBearer token1 d1 version r) n = hdrs r n) ∧ (∀ n, n ≠ lit "authorization" → hdrs (gcpSign token1 r) n = hdrs r n) ∧
    azureBearer token2 d2 version (azureBearer token1 d1 version r) = azureBearer token2 d2 version r ∧ gcpSign token2 (gcpSign token1 r) = gcpSign token2 r ∧
    (azureBearer token1 d1 version r).target = r.target ∧ (azureBearer token1 d1 version r).method = r.method := by
  refine ⟨⟨_, by rw [azureBearer, hdrs_set, if_pos low_auth]⟩, ⟨_, by rw [gcpSign, hdrs_set, if_pos low_auth]⟩, ?_, ?_, set_auth _ rfl rfl (xms_again _ _ _ _ _), set_auth _ rfl rfl ?_, rfl, rfl⟩
  · intro n hn
    simp only [List.mem_cons, List.not_mem_nil, or_false, not_or] at hn
    rw [azureBearer, hdrs_set, if_neg (by rw [low_auth]; exact fun e => hn.1 e.symm), xms_hdrs, if_neg hn.2.2, if_neg hn.2.1]
  · intro n hn
    rw [gcpSign, hdrs_set, if_neg (by rw [low_auth]; exact fun e => hn e.symm)]
  · have := without_set_self (lit "Authorization") (lit "Bearer " ++ token1) r
    rw [low_auth] at this
    exact this

theorem query_append : ∀ {a b : List (Str × Str)}, a ≠ [] → b ≠ [] → query (a ++ b) = query a ++ 38 :: query b
  | [], _, h, _ => absurd rfl h
  | [x], [], _, h => absurd rfl h
  | [x], y :: b, _, _ => rfl
  | x :: y :: a, b, _, hb => by
    have := query_append (a := y :: a) (b := b) (by simp) hb
    rw [List.cons_append, List.cons_append, query, ← List.cons_append, this, query]
    simp [List.append_assoc]

theorem has_sig {rs : List Str} {ra : List (Str × Str)} (hs : ∀ s ∈ rs, SegText s) (ha : ∀ a ∈ ra, ArgText a) : hasSig (target rs ra) = true ↔ ∃ a ∈ ra, low a.1 = lit "sig" ∧ a.2 ≠ [] := by
  unfold hasSig
  rw [query_args hs ha]
  simp [lower_low]

theorem mem_target {rs : List Str} {ra : List (Str × Str)} (hs : ∀ s ∈ rs, SegText s) : 63 ∈ target rs ra ↔ ra ≠ [] := by
  unfold target
  constructor
  · intro hm hn
    rw [if_pos hn, List.append_nil] at hm
    obtain ⟨s, h1, h2⟩ := List.mem_flatMap.mp hm
    rcases List.mem_cons.mp h2 with e | h2
    · cases e
    · exact (hs s h1).2.1 h2
  · intro hn; rw [if_neg hn]; simp

theorem add_sas {rs : List Str} {ra sa : List (Str × Str)} (hs : ∀ s ∈ rs, SegText s) (ha : ∀ a ∈ ra, ArgText a) (hne : sa ≠ []) (hr : ∀ a ∈ ra, ¬ (low a.1 = lit "sig" ∧ a.2 ≠ [])) :
    addSas (target rs ra) (query sa) = target rs (ra ++ sa) := by
  have h1 : hasSig (target rs ra) = false := by
    rw [← Bool.not_eq_true, has_sig hs ha]
    rintro ⟨a, h, h2⟩; exact hr a h h2
  unfold addSas
  rw [if_neg (by rw [h1]; simp [query_ne_nil hne])]
  by_cases hn : ra = []
  · rw [if_pos (by rw [Option.isNone_iff_eq_none, find_none, mem_target hs]; simp [hn])]
    unfold target
    rw [hn, if_pos rfl, List.nil_append, if_neg hne, List.append_nil, List.append_assoc]
    rfl
  · rw [if_neg (by rw [Option.isNone_iff_eq_none, find_none, mem_target hs]; simp [hn])]
    unfold target
    rw [if_neg hn, if_neg (by simp [hn]), query_append hn hne]
    simp only [List.append_assoc, List.cons_append]
    rfl

/-- **C105** A shared access signature is added to the arguments of the request, once: signing again changes nothing, if it has a signature. -/
theorem C105_sas_partial (segs : List Str) (ra sa : List (Str × Str)) (d1 d2 version : Str) (r : Req) (ht : r.target = target segs ra) (hs : ∀ s ∈ segs, SegText s) (ha : ∀ a ∈ ra ++ sa, ArgText a) (hne : sa ≠ [])
    (hr : ∀ a ∈ ra, ¬ (low a.1 = lit "sig" ∧ a.2 ≠ [])) (hsig : ∃ a ∈ sa, low a.1 = lit "sig" ∧ a.2 ≠ []) :
    (azureSas (query sa) d1 version r).target = target segs (ra ++ sa) ∧ (azureSas (query sa) d2 version (azureSas (query sa) d1 version r)).target = target segs (ra ++ sa) := by
  have hra : ∀ a ∈ ra, ArgText a := fun a h => ha a (by simp [h])
  have h2 : hasSig (target segs (ra ++ sa)) = true := by
    rw [has_sig hs ha]
    obtain ⟨a, h, h2⟩ := hsig
    exact ⟨a, by simp [h], h2⟩
  have key := add_sas (sa := sa) hs hra hne hr
  have e1 : (azureSas (query sa) d1 version r).target = target segs (ra ++ sa) := by
    unfold azureSas
    show addSas r.target (query sa) = _
    rw [ht, key]
  refine ⟨e1, ?_⟩
  unfold azureSas at e1 ⊢
  show addSas _ (query sa) = _
  simp only at e1
  show addSas (addSas r.target (query sa)) (query sa) = _
  rw [ht, key, addSas, if_pos (Or.inr h2)]

/-- **C105** Disagreement: a shared access signature without a signature, or of which the signature is empty, is added again at every signing. -/
theorem C105_sas_nosig (sas d1 d2 version : Str) (segs : List Str) (r : Req) (ht : r.target = segs.flatMap (47 :: ·)) (hs : ∀ s ∈ segs, SegText s) (sa : List (Str × Str)) (ha : ∀ a ∈ sa, ArgText a) (hq : sas = query sa) (hne : sa ≠ [])
    (hsig : ∀ a ∈ sa, ¬ (low a.1 = lit "sig" ∧ a.2 ≠ [])) : (azureSas sas d2 version (azureSas sas d1 version r)).target = target segs (sa ++ sa) := by
  have ht : r.target = target segs [] := by rw [ht]; simp [target]
  have k1 := add_sas (ra := []) (sa := sa) hs (by simp) hne (by simp)
  have k2 := add_sas (ra := sa) (sa := sa) hs ha hne hsig
  show addSas (addSas r.target sas) sas = _
  rw [ht, hq, k1]
  exact k2

/-- **C105** Disagreement: a key that is not base64 is not reported; the first request fails a CHECK. -/
theorem C105_azure_bad_key (hmac : Str → Str → Str) (b64 : Str → Str) (unb64 : Str → Option Str) (account key date version : Str) (r : Req) (h : unb64 key = none) :
    azureSharedKey hmac b64 unb64 account key date version r = .crash := by
  unfold azureSharedKey; simp [h]

/-! ### The hypotheses are met -/

theorem unique_of_nodup {r : Req} (h : (r.headers.map fun h => low h.1).Nodup) : Unique r := by
  intro n
  unfold hdrs
  generalize r.headers = l at h
  induction l with
  | nil => simp
  | cons a l ih =>
    rw [List.map_cons, List.nodup_cons] at h
    rw [List.filter_cons]
    split
    · rename_i e
      have : (l.filter fun h => low h.1 = n) = [] := by
        rw [List.filter_eq_nil_iff]
        intro b hb e2
        exact h.1 (List.mem_map.mpr ⟨b, hb, (of_decide_eq_true e2).trans (of_decide_eq_true e).symm⟩)
      rw [this]; simp
    · exact ih h.2

/-- A request for a part of a list. -/
def exReq : Req := ⟨lit "GET", lit "/b/k?max-keys=5&prefix=x%2Fy", [(lit "Host", lit "s3.amazonaws.com"), (lit "x-amz-content-sha256", lit "UNSIGNED-PAYLOAD"), (lit "Range", lit "bytes=0-9")]⟩

example : ∃ r', awsSign (fun k t => k ++ t) id ⟨lit "AK", lit "S", lit "T"⟩ (lit "eu") (lit "20260102T030405Z") (lit "20260102") exReq = some r' ∧
    AwsAccepts (fun k t => k ++ t) id (fun i => if i = lit "AK" then some (lit "S", lit "T") else none) (lit "eu") (lit "/b/k") [(lit "max-keys", lit "5"), (lit "prefix", lit "x/y")] r' := by
  obtain ⟨r', h1, h2, -⟩ := C105_aws_accepted_partial (fun k t => k ++ t) id ⟨lit "AK", lit "S", lit "T"⟩ (lit "eu") (lit "20260102T030405Z") exReq (fun i => if i = lit "AK" then some (lit "S", lit "T") else none)
    [lit "b", lit "k"] [(lit "max-keys", lit "5"), (lit "prefix", lit "x/y")] rfl (by decide) (by decide +kernel) (by decide +kernel) (by unfold ArgText; decide +kernel) (unique_of_nodup (by decide +kernel))
    ⟨lit "s3.amazonaws.com", lit "Host", by decide +kernel⟩ (fun _ => by decide +kernel) (by decide +kernel) (by decide +kernel) (by decide +kernel)
  exact ⟨r', h1, h2⟩

/-- A block of an upload. -/
def exPut : Req := ⟨lit "PUT", lit "/c/o?comp=block&blockid=MDA%3D", [(lit "Host", lit "h"), (lit "Content-Length", lit "7"), (lit "x-ms-blob-type", lit "B")]⟩

theorem stripped_self {s : Str} (h : strip s = s) : Stripped s s := by
  have := strip_spec s
  rwa [h] at this

example : ∃ r', azureSharedKey (fun k t => k ++ t) id some (lit "acc") (lit "K") (lit "D") (lit "V") exPut = .ok r' ∧
    AzureAccepts (fun k t => k ++ t) id (fun a => if a = lit "acc" then some (lit "K") else none) (lit "/c/o") [(lit "comp", lit "block"), (lit "blockid", lit "MDA=")] r' := by
  obtain ⟨r', h1, h2, -⟩ := C105_azure_accepted_partial (fun k t => k ++ t) id some (lit "acc") (lit "K") (lit "K") (lit "D") (lit "V") exPut (fun a => if a = lit "acc" then some (lit "K") else none)
    [lit "c", lit "o"] [(lit "comp", lit "block"), (lit "blockid", lit "MDA%3D")] [(lit "comp", lit "block"), (lit "blockid", lit "MDA=")] rfl rfl (by unfold SegText; decide +kernel) (by unfold ArgText; decide +kernel) (by decide +kernel)
    (.cons ⟨rfl, by decide, by decide, means_self (by decide +kernel)⟩ (.cons ⟨rfl, by decide, by decide, ((C36_decode_partial (lit "MDA%3D") [] (by decide) (by decide) (lit "MDA=")).mp (by decide +kernel)).elim fun s h => by rw [show lit "MDA=" = s from h.2]; exact h.1⟩ .nil))
    (by decide +kernel) (by decide +kernel) (unique_of_nodup (by decide +kernel)) (by decide +kernel)
    (by
      intro h hm hp
      have hc : ∀ h ∈ exPut.headers, (lit "x-ms-").isPrefixOf (low h.1) = true → low h.1 = h.1 ∧ strip h.2 = h.2 := by decide +kernel
      have := hc h hm (List.isPrefixOf_iff_prefix.mpr hp)
      exact ⟨this.1, stripped_self this.2⟩)
    (stripped_self (by decide +kernel)) (stripped_self (by decide +kernel))
  exact ⟨r', h1, h2⟩

example : addSas (addSas (lit "/c/o?comp=list") (lit "sv=1&sig=x")) (lit "sv=1&sig=x") = lit "/c/o?comp=list&sv=1&sig=x" ∧ addSas (addSas (lit "/c/o") (lit "sv=1")) (lit "sv=1") = lit "/c/o?sv=1&sv=1" := by decide +kernel

end Verif.CloudSign
