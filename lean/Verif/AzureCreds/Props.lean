import Verif.AzureCreds.Spec
import Verif.CloudUrl.Props
import Verif.Text.Props
/-! C108: where Azure credentials come from. -/
namespace Verif.AzureCreds
open Verif.Text hiding Byte
open Verif.Url Verif.CloudUrl Verif.CloudSign Spec Verif.CloudUrl.Spec

theorem split_intercalate {c : UInt8} : ∀ (ps : List Str), ps ≠ [] → (∀ p ∈ ps, c ∉ p) → split c (List.intercalate [c] ps) = ps
  | [], h, _ => absurd rfl h
  | [p], _, h => by simpa [List.intercalate] using split_none (h p (by simp))
  | p :: q :: ps, _, h => by
    have ih := split_intercalate (q :: ps) (by simp) fun x hx => h x (List.mem_cons_of_mem _ hx)
    have e : List.intercalate [c] (p :: q :: ps) = p ++ c :: List.intercalate [c] (q :: ps) := by simp [List.intercalate]
    rw [e, split_append _ (h p (by simp)), ih]

theorem strip_between {b s d : Str} (hb : Blank b) (hs : Trimmed s) (hd : Blank d) : strip (b ++ s ++ d) = s :=
  (stripped_unique ⟨⟨b, d, rfl, hb, hd⟩, hs.1, hs.2⟩).symm

theorem strip_blank {b : Str} (hb : Blank b) : strip b = [] := by
  have := strip_between (s := []) hb ⟨by simp, by simp⟩ (d := []) (by simp [Blank])
  simpa using this

theorem blank_free {b : Str} (hb : Blank b) {c : UInt8} (hc : isSpace c = false) : c ∉ b := fun h => by simp [hb c h] at hc

theorem part_free (p : Part) (h : p.Ok) : 59 ∉ p.text := by
  cases p with
  | blank b => exact blank_free h (by decide)
  | setting b1 n b2 b3 v b4 =>
    obtain ⟨h1, h2, h3, h4, _, _, _, _, hn, hv⟩ := h
    simp only [Part.text, List.mem_append, List.mem_singleton, not_or]
    exact ⟨⟨⟨⟨⟨⟨blank_free h1 (by decide), hn⟩, blank_free h2 (by decide)⟩, by decide⟩, blank_free h3 (by decide)⟩, hv⟩, blank_free h4 (by decide)⟩

theorem splitKv_append {k : Str} (v : Str) (h : 61 ∉ k) : splitKv (k ++ 61 :: v) = (k, v) := by
  rw [splitKv, find_append v h]
  simp

/-- The blanks at the end of the value are gone with those around the part. -/
theorem connPiece_setting {b1 n b2 b3 v b4 : Str} (h : (Part.setting b1 n b2 b3 v b4).Ok) : connPiece (Part.setting b1 n b2 b3 v b4).text = some (lower n, v) := by
  obtain ⟨h1, h2, h3, h4, hn, hv, hne, heq, _, _⟩ := h
  obtain ⟨c, n', rfl⟩ : ∃ c n', n = c :: n' := by cases n with | nil => exact absurd rfl hne | cons c n' => exact ⟨c, n', rfl⟩
  -- what is left when the part is stripped
  obtain ⟨t, ht⟩ : ∃ t, t = (if v = [] then ([] : Str) else b3 ++ v) := ⟨_, rfl⟩
  have hst : strip (Part.setting b1 (c :: n') b2 b3 v b4).text = (c :: n') ++ b2 ++ 61 :: t := by
    by_cases hv0 : v = []
    · subst hv0
      have e : (Part.setting b1 (c :: n') b2 b3 [] b4).text = b1 ++ ((c :: n') ++ b2 ++ 61 :: t) ++ (b3 ++ b4) := by simp [Part.text, ht]
      rw [e]
      refine strip_between h1 ⟨?_, ?_⟩ ?_
      · intro x hx; exact hn.1 x (by simpa using hx)
      · intro x hx
        have h0 : t = [] := by simp [ht]
        rw [h0, List.getLast?_append] at hx
        simp at hx; subst hx; decide
      · intro x hx; rcases List.mem_append.1 hx with h | h
        · exact h3 x h
        · exact h4 x h
    · have e : (Part.setting b1 (c :: n') b2 b3 v b4).text = b1 ++ ((c :: n') ++ b2 ++ 61 :: t) ++ b4 := by simp [Part.text, ht, hv0]
      rw [e]
      refine strip_between h1 ⟨?_, ?_⟩ h4
      · intro x hx; exact hn.1 x (by simpa using hx)
      · intro x hx
        have : ((c :: n') ++ b2 ++ 61 :: t).getLast? = v.getLast? := by
          have e2 : (c :: n') ++ b2 ++ 61 :: t = ((c :: n') ++ b2 ++ 61 :: b3) ++ v := by simp [ht, hv0]
          rw [e2, List.getLast?_append]
          cases hg : v.getLast? with
          | none => exact absurd (List.getLast?_eq_none_iff.1 hg) hv0
          | some y => rfl
        rw [this] at hx
        exact hv.2 x hx
  have hkv : splitKv ((c :: n') ++ b2 ++ 61 :: t) = ((c :: n') ++ b2, t) := splitKv_append _ (by
    rw [List.mem_append, not_or]; exact ⟨heq, blank_free h2 (by decide)⟩)
  have hk : strip ((c :: n') ++ b2) = c :: n' := by
    have := strip_between (b := []) (by simp [Blank]) hn h2
    simpa using this
  have hval : strip t = v := by
    by_cases hv0 : v = []
    · subst hv0; simp [ht, strip]
    · have := strip_between h3 hv (d := []) (by simp [Blank])
      simpa [ht, hv0] using this
  rw [connPiece]
  simp only [hst, hkv, hk, hval]
  simp

theorem connPiece_blank {b : Str} (h : Blank b) : connPiece b = none := by simp [connPiece, strip_blank h]

/-- **The settings of a connection string are found**, whatever their order, the case of their names and the blanks around names and values, with empty parts anywhere and `=` in values. -/
theorem C108_settings (ps : List Part) (hne : ps ≠ []) (hok : ∀ p ∈ ps, p.Ok) (name : Str) : mapGet (connMap (connText ps)) name = setting ps name := by
  rw [connMap, connText, split_intercalate _ (by simpa using hne) (by
    intro t ht; obtain ⟨p, hp, rfl⟩ := List.mem_map.1 ht; exact part_free p (hok p hp))]
  clear hne
  induction ps with
  | nil => rfl
  | cons p ps ih =>
    have ih := ih fun q hq => hok q (List.mem_cons_of_mem _ hq)
    have hp := hok p (by simp)
    cases p with
    | blank b =>
      rw [List.map_cons, List.filterMap_cons, show (Part.blank b).text = b from rfl, connPiece_blank hp]
      exact ih
    | setting b1 n b2 b3 v b4 =>
      rw [List.map_cons, List.filterMap_cons, connPiece_setting hp]
      simp only [setting, mapGet, List.find?_cons]
      by_cases h : lower n = lower name
      · simp [h]
      · simpa [h, mapGet] using ih

theorem urlPath_append {a p : Str} (ha : 47 ∉ a) (hp : p = [] ∨ p.head? = some 47) :
    upTo (a ++ p) (find 47 (a ++ p)) = a ∧ urlPath (a ++ p) = if p = [] then lit "/" else p := by
  rcases hp with rfl | hp
  · have : find 47 a = none := find_none.2 ha
    simp [urlPath, this, upTo]
  · cases p with
    | nil => simp at hp
    | cons c p =>
      simp at hp; subst hp
      rw [urlPath, find_append p ha]
      simp [upTo]

theorem rfind_append {c : UInt8} : ∀ {a : Str} (b : Str), c ∉ b → rfind c (a ++ c :: b) = some a.length
  | [], b, h => by have := rfind_none.2 h; simp [rfind, this]
  | x :: a, b, h => by simp only [List.cons_append, rfind, rfind_append (a := a) b h, List.length_cons]

theorem segs_ends {segs : List Str} (h : ∀ t ∈ segs, t ≠ [] ∧ 47 ∉ t) (hne : segs ≠ []) :
    ∃ a c, segs.flatMap (47 :: ·) = a ++ [c] ∧ c ≠ 47 ∧ a ≠ [] := by
  obtain ⟨i, t, rfl⟩ : ∃ i t, segs = i ++ [t] := ⟨segs.dropLast, segs.getLast hne, (List.dropLast_append_getLast hne).symm⟩
  have ht := h t (by simp)
  refine ⟨i.flatMap (47 :: ·) ++ 47 :: t.dropLast, t.getLast ht.1, ?_, fun e => ht.2 (e ▸ List.getLast_mem ht.1), by simp⟩
  have : t = t.dropLast ++ [t.getLast ht.1] := (List.dropLast_append_getLast ht.1).symm
  simp only [List.flatMap_append, List.flatMap_cons, List.flatMap_nil, List.append_nil, List.append_assoc, List.cons_append]
  rw [← this]

theorem prefixOf_segs {segs : List Str} (h : ∀ t ∈ segs, t ≠ [] ∧ 47 ∉ t) (slash : Bool) (p : Str) (hp : p = segs.flatMap (47 :: ·) ++ if slash then [47] else []) :
    prefixOf (if p = [] then lit "/" else p) [] = segs.flatMap (47 :: ·) := by
  by_cases hs : segs = []
  · subst hs
    cases slash <;> subst hp <;> decide +kernel
  · obtain ⟨a, c, e, hc, ha⟩ := segs_ends h hs
    rw [e] at hp ⊢
    have hl : 0 < a.length := List.length_pos_iff.2 ha
    have hp0 : p ≠ [] := by subst hp; cases slash <;> simp
    have hp1 : p ≠ lit "/" := by
      intro hq
      have := congrArg List.length (hq.symm.trans hp)
      have h1 : (lit "/").length = 1 := by decide +kernel
      rw [h1] at this
      rw [List.length_append, List.length_append] at this
      simp only [List.length_singleton] at this
      omega
    rw [if_neg hp0, prefixOf, if_neg hp1]
    cases slash
    · simp at hp
      rw [hp]
      have : ¬ (1 < (a ++ [c]).length ∧ (a ++ [c]).getLast? = some 47) := by simp [hc]
      rw [if_neg this]
    · simp at hp
      have e2 : a ++ [c, 47] = (a ++ [c]) ++ [47] := by simp
      rw [hp, e2]
      rw [if_pos (by simp)]
      simp

def portOf (https : Bool) : Option Str → Str
  | some p => p
  | none => if https then lit "443" else lit "80"

/-- **An endpoint is taken as it is written**: scheme, host, port (left out if it is the scheme's), and the path as a prefix of the paths of requests, with or without a slash at the end, and blanks around. -/
theorem C108_endpoint (https : Bool) (host : Str) (port : Option Str) (segs : List Str) (slash : Bool) (b1 b2 : Str) (i : Info)
    (hb1 : Blank b1) (hb2 : Blank b2) (hh : host ≠ []) (h47 : 47 ∉ host) (h58 : 58 ∉ host) (hp : ∀ p, port = some p → 47 ∉ p ∧ 58 ∉ p)
    (hs : ∀ t ∈ segs, t ≠ [] ∧ 47 ∉ t) (hi : i.pathPrefix = []) (hsp : ∀ x ∈ urlText https host port segs slash, isSpace x = false) :
    parseEndpoint (b1 ++ urlText https host port segs slash ++ b2) i =
      some { i with endpoint := hostPort https host port, https := https, pathPrefix := segs.flatMap (47 :: ·) } := by
  have hst : strip (b1 ++ urlText https host port segs slash ++ b2) = urlText https host port segs slash :=
    strip_between hb1 ⟨fun x hx => hsp x (List.mem_of_mem_head? hx), fun x hx => hsp x (List.mem_of_getLast? hx)⟩ hb2
  obtain ⟨path, hpath⟩ : ∃ path, path = segs.flatMap (47 :: ·) ++ if slash then [47] else [] := ⟨_, rfl⟩
  obtain ⟨auth, hauth⟩ : ∃ auth, auth = host ++ portText port := ⟨_, rfl⟩
  have hu : urlText https host port segs slash = (if https then lit "https://" else lit "http://") ++ (auth ++ path) := by
    rw [urlText, hpath, hauth]; simp
  have ha47 : 47 ∉ auth := by
    rw [hauth, List.mem_append, not_or]
    refine ⟨h47, ?_⟩
    cases port with
    | none => simp [portText]
    | some p => simpa [portText] using (hp p rfl).1
  have hhead : path = [] ∨ path.head? = some 47 := by
    rw [hpath]
    cases segs with
    | nil => cases slash <;> simp
    | cons t r => right; simp
  obtain ⟨u1, u2⟩ := urlPath_append ha47 hhead
  have hr : parseHttpUrl (urlText https host port segs slash) = urlRest https (auth ++ path) := by
    rw [hu]
    cases https <;> simp [parseHttpUrl, consumePrefix, lit, List.isPrefixOf]
  have hrr : urlRest https (auth ++ path) = ⟨(urlHostPort https auth).1, (urlHostPort https auth).2, if path = [] then lit "/" else path, https⟩ := by
    simp only [urlRest, u1, u2]
  have hhp : urlHostPort https auth = (host, portOf https port) := by
    rw [hauth, urlHostPort]
    cases port with
    | none =>
      simp only [List.append_nil, portText, portOf]
      rw [rfind_none.2 h58]
    | some p =>
      simp only [portText, portOf]
      rw [rfind_append p (hp p rfl).2]
      simp
  have hne : urlText https host port segs slash ≠ [] := by
    rw [hu]; cases https <;> simp [lit]
  rw [parseEndpoint]
  simp only [hst, hne, if_false, hr, hrr, hhp, hh, hi]
  rw [prefixOf_segs hs slash path hpath]
  congr 2
  cases port with
  | none => simp [hostPort, portOf]
  | some p => simp [hostPort, portOf, lit]

theorem mapGet_ne {m : List (Str × Str)} {k : Str} (h : mapGet m k ≠ []) : m ≠ [] := by
  rintro rfl; exact h rfl

theorem connMap_text {t k : Str} (h : mapGet (connMap t) k ≠ []) : t ≠ [] := by
  rintro rfl; exact h (by simp [connMap, split, connPiece, strip, mapGet])

/-- The settings of a connection string that count, with its account. -/
theorem try_conn {requested : Str} {env : Env} {ps : List Part} (hne : ps ≠ []) (hok : ∀ p ∈ ps, p.Ok) (hconn : env (lit "AZURE_STORAGE_CONNECTION_STRING") = connText ps)
    (hdev : lower (setting ps (lit "UseDevelopmentStorage")) ≠ lit "true") {i : Info} (hset : ∃ k, setting ps k ≠ [])
    (hi : connEndpoint (connMap (connText ps)) { Info.empty with name := setting ps (lit "AccountName") } = .ok i) (hn : i.name ≠ []) (hm : matching requested i.name = true) :
    tryConnectionString requested env =
      if setting ps (lit "AccountKey") ≠ [] then .ok (setCredentials .connectionString (if requested ≠ [] then fromUri requested else i) .sharedKey (setting ps (lit "AccountKey")))
      else if normalizeSas (setting ps (lit "SharedAccessSignature")) ≠ [] then
        .ok (setCredentials .connectionString (if requested ≠ [] then fromUri requested else i) .sas (normalizeSas (setting ps (lit "SharedAccessSignature"))))
      else .err .badMessage := by
  have hg := C108_settings ps hne hok
  obtain ⟨k, hk⟩ := hset
  rw [← hg] at hk
  have h1 : env (lit "AZURE_STORAGE_CONNECTION_STRING") ≠ [] := hconn ▸ connMap_text hk
  have h2 : connMap (connText ps) ≠ [] := mapGet_ne hk
  have htrue : lower (lit "true") = lit "true" := by decide +kernel
  rw [tryConnectionString, if_neg h1]
  simp only [hconn, h2, if_false, hg, htrue, hdev, hi, hn, hm]
  simp

theorem conn_default {ps : List Part} (hne : ps ≠ []) (hok : ∀ p ∈ ps, p.Ok) (hb : setting ps (lit "BlobEndpoint") = []) (ha : setting ps (lit "AccountName") ≠ []) :
    connEndpoint (connMap (connText ps)) { Info.empty with name := setting ps (lit "AccountName") } =
      .ok ⟨setting ps (lit "AccountName") ++ lit ".blob." ++ suffixOf ps, setting ps (lit "AccountName"), [], true⟩ := by
  have hg := C108_settings ps hne hok
  simp only [connEndpoint, hg, hb, ha, suffixOf, defaultSuffix, Info.empty]
  simp

/-- **A connection string with an account and its key is used**: the key signs requests as that account, which go to `account.blob.suffix` by HTTPS. What else is in the environment does not matter. -/
theorem C108_connection_key (env : Env) (imds : Str → Reply) (now : Nat) (s : St) (ps : List Part) (hne : ps ≠ []) (hok : ∀ p ∈ ps, p.Ok)
    (hconn : env (lit "AZURE_STORAGE_CONNECTION_STRING") = connText ps) (hdev : lower (setting ps (lit "UseDevelopmentStorage")) ≠ lit "true")
    (hb : setting ps (lit "BlobEndpoint") = []) (ha : setting ps (lit "AccountName") ≠ []) (hk : setting ps (lit "AccountKey") ≠ []) :
    init [] env imds now s = some (none, ⟨.connectionString, .sharedKey, ⟨setting ps (lit "AccountName") ++ lit ".blob." ++ suffixOf ps, setting ps (lit "AccountName"), [], true⟩, setting ps (lit "AccountKey"), [], [], 0⟩) := by
  rw [init, try_conn hne hok hconn hdev ⟨_, ha⟩ (conn_default hne hok hb ha) ha (by simp [matching])]
  simp [hk, setCredentials]

/-- **With a shared access signature and no key, the signature is used**, with or without a question mark in front. -/
theorem C108_connection_sas (env : Env) (imds : Str → Reply) (now : Nat) (s : St) (ps : List Part) (hne : ps ≠ []) (hok : ∀ p ∈ ps, p.Ok)
    (hconn : env (lit "AZURE_STORAGE_CONNECTION_STRING") = connText ps) (hdev : lower (setting ps (lit "UseDevelopmentStorage")) ≠ lit "true")
    (hb : setting ps (lit "BlobEndpoint") = []) (ha : setting ps (lit "AccountName") ≠ []) (hk : setting ps (lit "AccountKey") = [])
    (sig : Str) (hs : setting ps (lit "SharedAccessSignature") = sig ∨ setting ps (lit "SharedAccessSignature") = 63 :: sig) (hsig : sig ≠ [] ∧ sig.head? ≠ some 63 ∧ Trimmed sig) :
    init [] env imds now s = some (none, ⟨.connectionString, .sas, ⟨setting ps (lit "AccountName") ++ lit ".blob." ++ suffixOf ps, setting ps (lit "AccountName"), [], true⟩, [], sig, [], 0⟩) := by
  have hn : normalizeSas (setting ps (lit "SharedAccessSignature")) = sig := by
    have e : ∀ t : Str, Trimmed t → strip t = t := fun t ht => by
      have := strip_between (b := []) (by simp [Blank]) ht (d := []) (by simp [Blank]); simpa using this
    obtain ⟨h1, h2, h3⟩ := hsig
    rcases hs with h | h <;> rw [h, normalizeSas]
    · rw [e _ h3]
      split
      · simp at h2
      · rfl
    · rw [e (63 :: sig) ⟨fun x hx => by simp at hx; subst hx; decide, fun x hx => h3.2 x (by
        cases sig with
        | nil => exact absurd rfl h1
        | cons c r => simpa using hx)⟩]
      rfl
  rw [init, try_conn hne hok hconn hdev ⟨_, ha⟩ (conn_default hne hok hb ha) ha (by simp [matching])]
  simp [hk, hn, hsig.1, setCredentials]

/-- **With a `BlobEndpoint`, requests go there**: to its host and port, by its scheme, under its path. -/
theorem C108_connection_endpoint (env : Env) (imds : Str → Reply) (now : Nat) (s : St) (ps : List Part) (hne : ps ≠ []) (hok : ∀ p ∈ ps, p.Ok)
    (hconn : env (lit "AZURE_STORAGE_CONNECTION_STRING") = connText ps) (hdev : lower (setting ps (lit "UseDevelopmentStorage")) ≠ lit "true")
    (ha : setting ps (lit "AccountName") ≠ []) (hk : setting ps (lit "AccountKey") ≠ [])
    (https : Bool) (host : Str) (port : Option Str) (segs : List Str) (slash : Bool) (hb : setting ps (lit "BlobEndpoint") = urlText https host port segs slash)
    (hh : host ≠ []) (h47 : 47 ∉ host) (h58 : 58 ∉ host) (hp : ∀ p, port = some p → 47 ∉ p ∧ 58 ∉ p)
    (hs : ∀ t ∈ segs, t ≠ [] ∧ 47 ∉ t) (hsp : ∀ x ∈ urlText https host port segs slash, isSpace x = false) :
    init [] env imds now s = some (none, ⟨.connectionString, .sharedKey, ⟨hostPort https host port, setting ps (lit "AccountName"), segs.flatMap (47 :: ·), https⟩, setting ps (lit "AccountKey"), [], [], 0⟩) := by
  have he := C108_endpoint https host port segs slash [] [] { Info.empty with name := setting ps (lit "AccountName") } (by simp [Blank]) (by simp [Blank]) hh h47 h58 hp hs rfl hsp
  have hne0 : urlText https host port segs slash ≠ [] := by
    cases https <;> simp [urlText, lit]
  have hi : connEndpoint (connMap (connText ps)) { Info.empty with name := setting ps (lit "AccountName") } =
      .ok ⟨hostPort https host port, setting ps (lit "AccountName"), segs.flatMap (47 :: ·), https⟩ := by
    simp only [List.nil_append, List.append_nil] at he
    rw [connEndpoint, C108_settings ps hne hok, if_pos (by rw [hb]; exact hne0), hb, he]
  rw [init, try_conn hne hok hconn hdev ⟨_, ha⟩ hi ha (by simp [matching])]
  simp [hk, setCredentials]

theorem findStr_dot {a r p : Str} (ha : 46 ∉ a) : findStr (46 :: p) (a ++ (46 :: p) ++ r) = some a.length := by
  induction a with
  | nil => simp [findStr, List.isPrefixOf_iff_prefix]
  | cons c a ih =>
    simp only [List.mem_cons, not_or] at ha
    have : (46 :: p).isPrefixOf (c :: (a ++ (46 :: p) ++ r)) = false := by simp [List.isPrefixOf, ha.1]
    rw [List.cons_append, List.cons_append, findStr, this]
    simp only [Bool.false_eq_true, if_false, ih ha.2]
    simp

/-- The account is what precedes `.blob.` in the name of the host. -/
theorem C108_inferred (a r : Str) (h0 : a ≠ []) (ha : 46 ∉ a) : inferName (a ++ lit ".blob." ++ r) = a := by
  have e : lit ".blob." = 46 :: lit "blob." := by decide +kernel
  rw [inferName, e, findStr_dot ha]
  cases hl : a.length with
  | zero => exact absurd (List.length_eq_zero_iff.1 hl) h0
  | succ n =>
    simp only []
    rw [← hl, List.append_assoc, List.take_left]

/-! ### What holds of every start -/

theorem parseEndpoint_name {e : Str} {i j : Info} (h : parseEndpoint e i = some j) : j.name = i.name := by
  simp only [parseEndpoint] at h
  split at h
  · cases h
  · split at h
    · cases h
    · cases h; rfl

theorem resolve_name {env : Env} {i j : Info} (h : resolveFromEnv env i = .ok j) (hn : i.name ≠ []) : j.name = i.name := by
  simp only [resolveFromEnv] at h
  have key : ∀ (f : Except Err Info), (∀ k, f = .ok k → k.name = i.name) →
      (match f with | .error e => Except.error e | .ok j => .ok (if j.name = [] then { j with name := inferName j.endpoint } else j)) = .ok j → j.name = i.name := by
    intro f hf hj
    cases f with
    | error e => cases hj
    | ok k =>
      have := hf k rfl
      simp only [this, hn, if_false] at hj
      cases hj; exact this
  refine key _ ?_ h
  intro k hk
  split at hk
  · split at hk
    · cases hk
    · next j' hj' => cases hk; exact parseEndpoint_name hj'
  · split at hk
    · split at hk
      · cases hk
      · next j' hj' => cases hk; exact parseEndpoint_name hj'
    · cases hk; rfl

/-- What a successful source has set. -/
theorem conn_ok {requested : Str} {env : Env} {t : St} (h : tryConnectionString requested env = .ok t) :
    OneKind t ∧ t.source = .connectionString ∧ (requested ≠ [] → t.info = fromUri requested) ∧ t.info.name ≠ [] ∧
    (t.mode = .sharedKey → t.key = mapGet (connMap (env (lit "AZURE_STORAGE_CONNECTION_STRING"))) (lit "AccountKey")) ∧
    (t.mode = .sas → t.sas = normalizeSas (mapGet (connMap (env (lit "AZURE_STORAGE_CONNECTION_STRING"))) (lit "SharedAccessSignature"))) ∧
    (requested ≠ [] → mapGet (connMap (env (lit "AZURE_STORAGE_CONNECTION_STRING"))) (lit "AccountName") ≠ [] →
      lower (mapGet (connMap (env (lit "AZURE_STORAGE_CONNECTION_STRING"))) (lit "AccountName")) = lower requested) := by
  obtain ⟨m, hm⟩ : ∃ m, m = connMap (env (lit "AZURE_STORAGE_CONNECTION_STRING")) := ⟨_, rfl⟩
  simp only [tryConnectionString, ← hm] at h ⊢
  split at h
  · cases h
  split at h
  · cases h
  split at h
  · cases h
  cases hc : connEndpoint m { Info.empty with name := mapGet m (lit "AccountName") } with
  | error e => simp [hc] at h
  | ok i =>
    have hin : i.name = mapGet m (lit "AccountName") := by
      simp only [connEndpoint] at hc
      split at hc
      · split at hc
        · cases hc
        · next j hj => cases hc; exact parseEndpoint_name hj
      · split at hc
        · cases hc
        · cases hc; rfl
    simp only [hc] at h
    obtain ⟨k, hk⟩ : ∃ k, k = (if i.name = [] then { i with name := inferName i.endpoint } else i) := ⟨_, rfl⟩
    simp only [← hk] at h
    split at h
    · cases h
    next hkn =>
    split at h
    · cases h
    next hmt =>
    have hmatch : requested ≠ [] → lower k.name = lower requested := by
      intro hr
      simp [matching, hr, hkn] at hmt
      exact hmt
    have hown : requested ≠ [] → mapGet m (lit "AccountName") ≠ [] → lower (mapGet m (lit "AccountName")) = lower requested := by
      intro hr ha
      have := hmatch hr
      rw [hk, if_neg (by rw [hin]; exact ha), hin] at this
      exact this
    obtain ⟨f, hf⟩ : ∃ f, f = (if requested ≠ [] then fromUri requested else k) := ⟨_, rfl⟩
    simp only [← hf] at h
    have hfn : f.name ≠ [] := by
      by_cases hr : requested = []
      · rw [hf]; simp [hr]; exact hkn
      · rw [hf]; simp [hr, fromUri]
    have hfu : requested ≠ [] → f = fromUri requested := fun hr => by rw [hf, if_pos hr]
    split at h
    · next hkey =>
      cases h
      exact ⟨.inl ⟨rfl, hkey, rfl, rfl⟩, rfl, hfu, hfn, fun _ => rfl, fun hm => by simp [setCredentials] at hm, hown⟩
    · split at h
      · next hsas =>
        cases h
        exact ⟨.inr (.inl ⟨rfl, hsas, rfl, rfl⟩), rfl, hfu, hfn, fun hm => by simp [setCredentials] at hm, fun _ => rfl, hown⟩
      · cases h

theorem env_ok {requested : Str} {env : Env} {t : St} (h : tryEnv requested env = .ok t) :
    OneKind t ∧ t.source = .env ∧ resolveFromEnv env (startInfo requested env) = .ok t.info ∧
    (t.mode = .sharedKey → t.key = env (lit "AZURE_STORAGE_KEY") ∧ t.info.name ≠ []) ∧
    (t.mode = .sas → t.sas = normalizeSas (env (lit "AZURE_STORAGE_SAS_TOKEN")) ∧ env (lit "AZURE_STORAGE_KEY") = []) := by
  simp only [tryEnv] at h
  split at h
  · next e he =>
    split at h
    · cases h
    · split at h <;> cases h
  · next i hi =>
    split at h
    · next hkey =>
      split at h
      · cases h
      · next hn =>
        cases h
        exact ⟨.inl ⟨rfl, hkey, rfl, rfl⟩, rfl, hi, fun _ => ⟨rfl, hn⟩, fun hm => by simp [setCredentials] at hm⟩
    · next hkey =>
      split at h
      · next hsas =>
        cases h
        exact ⟨.inr (.inl ⟨rfl, hsas, rfl, rfl⟩), rfl, hi, fun hm => by simp [setCredentials] at hm, fun _ => ⟨rfl, by simpa using hkey⟩⟩
      · cases h

theorem mi_ok {requested clientId : Str} {env : Env} {imds : Str → Reply} {now : Nat} {t : St} (h : tryManagedIdentity requested env clientId imds now = .ok t) :
    ∃ target ttl e, imdsTarget clientId = some target ∧ imds target = .doc (some t.token) e ∧ ttlOf e = some ttl ∧ resolveFromEnv env (startInfo requested env) = .ok t.info ∧ t = setBearer t.info t.token ttl now := by
  simp only [tryManagedIdentity] at h
  split at h
  · cases h
  next i hi =>
  split at h
  · cases h
  next tg htg =>
  split at h <;> try cases h
  next token e hd =>
  split at h
  · cases h
  next ttl httl =>
  cases h
  exact ⟨tg, ttl, e, htg, hd, httl, hi, rfl⟩

theorem conn_mode {requested : Str} {env : Env} {t : St} (h : tryConnectionString requested env = .ok t) : t.mode ≠ .bearer := by
  simp only [tryConnectionString] at h
  revert h
  repeat' split
  all_goals (intro h; cases h)
  all_goals simp [setCredentials]

theorem env_mode {requested : Str} {env : Env} {t : St} (h : tryEnv requested env = .ok t) : t.mode ≠ .bearer := by
  simp only [tryEnv] at h
  revert h
  repeat' split
  all_goals (intro h; cases h)
  all_goals simp [setCredentials]

theorem env_not_ub (requested : Str) (env : Env) : tryEnv requested env ≠ .ub := by
  simp only [tryEnv]
  repeat' split
  all_goals (intro h; cases h)

theorem conn_not_ub (requested : Str) (env : Env) : tryConnectionString requested env ≠ .ub := by
  simp only [tryConnectionString]
  repeat' split
  all_goals (intro h; cases h)

/-- A successful `Init` is one of the three sources, tried in their order. -/
theorem init_ok {requested : Str} {env : Env} {imds : Str → Reply} {now : Nat} {s t : St} (h : init requested env imds now s = some (none, t)) :
    tryConnectionString requested env = .ok t ∨
    ((∃ e, tryConnectionString requested env = .err e) ∧ (tryEnv requested env = .ok t ∨ ((∃ e, tryEnv requested env = .err e) ∧ tryManagedIdentity requested env (env (lit "AZURE_CLIENT_ID")) imds now = .ok t))) := by
  simp only [init] at h
  split at h
  · cases h; left; assumption
  · cases h
  · next e he =>
    right; refine ⟨⟨e, he⟩, ?_⟩
    split at h
    · cases h; left; assumption
    · cases h
    · next e' he' =>
      right; refine ⟨⟨e', he'⟩, ?_⟩
      split at h
      · cases h; assumption
      · cases h
      · cases h

/-- **After a successful `Init` there is exactly one kind of credentials**: a key, or a signature, neither of them empty, or a token. -/
theorem C108_one_kind (requested : Str) (env : Env) (imds : Str → Reply) (now : Nat) (s t : St) (h : init requested env imds now s = some (none, t)) : OneKind t := by
  rcases init_ok h with h | ⟨_, h | ⟨_, h⟩⟩
  · exact (conn_ok h).1
  · exact (env_ok h).1
  · obtain ⟨_, _, _, _, _, _, _, ht⟩ := mi_ok h
    rw [ht]; exact .inr (.inr ⟨rfl, rfl, rfl⟩)

/-- **When `Init` fails there are none**, whatever there was before, and it says that permission is denied. -/
theorem C108_fails (requested : Str) (env : Env) (imds : Str → Reply) (now : Nat) (s t : St) (e : Err) (h : init requested env imds now s = some (some e, t)) : Without t ∧ e = .permissionDenied := by
  simp only [init] at h
  split at h
  · cases h
  · cases h
  · split at h
    · cases h
    · cases h
    · split at h
      · cases h
      · cases h
      · cases h; exact ⟨⟨rfl, rfl, rfl, rfl⟩, rfl⟩

theorem start_requested {requested : Str} {env : Env} (hr : requested ≠ []) : startInfo requested env = fromUri requested := by simp [startInfo, hr]

/-- **The account that is asked for is the account in use**, from whatever source. -/
theorem C108_account (requested : Str) (hr : requested ≠ []) (env : Env) (imds : Str → Reply) (now : Nat) (s t : St) (h : init requested env imds now s = some (none, t)) : t.info.name = requested := by
  have hres : ∀ i, resolveFromEnv env (startInfo requested env) = .ok i → i.name = requested := fun i hi => by
    rw [start_requested hr] at hi
    exact resolve_name hi hr
  rcases init_ok h with h | ⟨_, h | ⟨_, h⟩⟩
  · rw [(conn_ok h).2.2.1 hr]; rfl
  · exact hres _ (env_ok h).2.2.1
  · obtain ⟨_, _, _, _, _, _, hi, _⟩ := mi_ok h
    exact hres _ hi

/-- **With no endpoint in the environment, its requests go to public Azure by HTTPS.** -/
theorem C108_account_endpoint (requested : Str) (hr : requested ≠ []) (env : Env) (imds : Str → Reply) (now : Nat) (s t : St) (h : init requested env imds now s = some (none, t))
    (h1 : env (lit "AZURE_STORAGE_BLOB_ENDPOINT") = []) (h2 : env (lit "AZURE_STORAGE_ACCOUNT_URL") = []) :
    t.info = ⟨requested ++ lit ".blob.core.windows.net", requested, [], true⟩ := by
  have e : requested ++ lit ".blob.core.windows.net" = requested ++ lit ".blob." ++ defaultSuffix := by
    rw [List.append_assoc]; exact congrArg _ (by decide +kernel)
  have hf : (⟨requested ++ lit ".blob.core.windows.net", requested, [], true⟩ : Info) = fromUri requested := by rw [e]; rfl
  have hres : ∀ i, resolveFromEnv env (startInfo requested env) = .ok i → i = fromUri requested := fun i hi => by
    rw [start_requested hr] at hi
    have hn : (fromUri requested).name ≠ [] := hr
    simp only [resolveFromEnv, h1, h2, ne_eq, not_true, if_false, hn, not_false_eq_true, if_true] at hi
    cases hi; rfl
  rw [hf]
  rcases init_ok h with h | ⟨_, h | ⟨_, h⟩⟩
  · exact (conn_ok h).2.2.1 hr
  · exact hres _ (env_ok h).2.2.1
  · obtain ⟨_, _, _, _, _, _, hi, _⟩ := mi_ok h
    exact hres _ hi

/-- **The connection string of another account is not used.** -/
theorem C108_other_account (requested : Str) (hr : requested ≠ []) (env : Env) (imds : Str → Reply) (now : Nat) (s t : St) (h : init requested env imds now s = some (none, t))
    (ps : List Part) (hne : ps ≠ []) (hok : ∀ p ∈ ps, p.Ok) (hconn : env (lit "AZURE_STORAGE_CONNECTION_STRING") = connText ps)
    (ha : setting ps (lit "AccountName") ≠ []) (hd : lower (setting ps (lit "AccountName")) ≠ lower requested) : t.source ≠ .connectionString := by
  have hg := C108_settings ps hne hok
  rcases init_ok h with h | ⟨_, h | ⟨_, h⟩⟩
  · have := (conn_ok h).2.2.2.2.2.2 hr
    rw [hconn, hg] at this
    exact absurd (this ha) hd
  · rw [(env_ok h).2.1]; decide
  · obtain ⟨_, _, _, _, _, _, _, ht⟩ := mi_ok h
    rw [ht]; simp [setBearer]

/-- **A key that is used is the one of the connection string or the one of the environment.** -/
theorem C108_key_source (requested : Str) (env : Env) (imds : Str → Reply) (now : Nat) (s t : St) (h : init requested env imds now s = some (none, t)) (hm : t.mode = .sharedKey)
    (ps : List Part) (hne : ps ≠ []) (hok : ∀ p ∈ ps, p.Ok) (hconn : env (lit "AZURE_STORAGE_CONNECTION_STRING") = connText ps) :
    t.info.name ≠ [] ∧ ((t.source = .connectionString ∧ t.key = setting ps (lit "AccountKey")) ∨ (t.source = .env ∧ t.key = env (lit "AZURE_STORAGE_KEY"))) := by
  have hg := C108_settings ps hne hok
  rcases init_ok h with h | ⟨_, h | ⟨_, h⟩⟩
  · have := conn_ok h
    refine ⟨this.2.2.2.1, .inl ⟨this.2.1, ?_⟩⟩
    rw [this.2.2.2.2.1 hm, hconn, hg]
  · have := env_ok h
    exact ⟨(this.2.2.2.1 hm).2, .inr ⟨this.2.1, (this.2.2.2.1 hm).1⟩⟩
  · obtain ⟨_, _, _, _, _, _, _, ht⟩ := mi_ok h
    rw [ht] at hm; cases hm

theorem no_conn {requested : Str} {env : Env} (h : env (lit "AZURE_STORAGE_CONNECTION_STRING") = []) : tryConnectionString requested env = .err .notSupported := by
  simp [tryConnectionString, h]

/-- **Account and key of the environment are used** when there is no connection string and no account is asked for. -/
theorem C108_env_key (env : Env) (imds : Str → Reply) (now : Nat) (s : St) (hc : env (lit "AZURE_STORAGE_CONNECTION_STRING") = [])
    (ha : env (lit "AZURE_STORAGE_ACCOUNT") ≠ []) (hk : env (lit "AZURE_STORAGE_KEY") ≠ []) (h1 : env (lit "AZURE_STORAGE_BLOB_ENDPOINT") = []) (h2 : env (lit "AZURE_STORAGE_ACCOUNT_URL") = []) :
    init [] env imds now s = some (none, ⟨.env, .sharedKey, ⟨env (lit "AZURE_STORAGE_ACCOUNT") ++ lit ".blob." ++ lit "core.windows.net", env (lit "AZURE_STORAGE_ACCOUNT"), [], true⟩, env (lit "AZURE_STORAGE_KEY"), [], [], 0⟩) := by
  have hr : resolveFromEnv env (startInfo [] env) = .ok ⟨env (lit "AZURE_STORAGE_ACCOUNT") ++ lit ".blob." ++ lit "core.windows.net", env (lit "AZURE_STORAGE_ACCOUNT"), [], true⟩ := by
    have : startInfo [] env = ⟨[], env (lit "AZURE_STORAGE_ACCOUNT"), [], true⟩ := by simp [startInfo, Info.empty]
    rw [this]
    simp only [resolveFromEnv, h1, h2, ne_eq, not_true, if_false, ha, not_false_eq_true, if_true, defaultSuffix]
  rw [init, no_conn hc]
  simp only [tryEnv, hr]
  simp [ha, hk, setCredentials]

/-- **The endpoint of the environment is where requests go**, `AZURE_STORAGE_BLOB_ENDPOINT` before `AZURE_STORAGE_ACCOUNT_URL`. -/
theorem C108_env_endpoint (requested : Str) (env : Env) (imds : Str → Reply) (now : Nat) (s : St) (hc : env (lit "AZURE_STORAGE_CONNECTION_STRING") = [])
    (ha : (startInfo requested env).name ≠ []) (hk : env (lit "AZURE_STORAGE_KEY") ≠ [])
    (https : Bool) (host : Str) (port : Option Str) (segs : List Str) (slash : Bool)
    (hb : env (lit "AZURE_STORAGE_BLOB_ENDPOINT") = urlText https host port segs slash ∨
      (env (lit "AZURE_STORAGE_BLOB_ENDPOINT") = [] ∧ env (lit "AZURE_STORAGE_ACCOUNT_URL") = urlText https host port segs slash))
    (hh : host ≠ []) (h47 : 47 ∉ host) (h58 : 58 ∉ host) (hp : ∀ p, port = some p → 47 ∉ p ∧ 58 ∉ p)
    (hs : ∀ t ∈ segs, t ≠ [] ∧ 47 ∉ t) (hsp : ∀ x ∈ urlText https host port segs slash, isSpace x = false) :
    init requested env imds now s = some (none, ⟨.env, .sharedKey, ⟨hostPort https host port, if requested = [] then env (lit "AZURE_STORAGE_ACCOUNT") else requested, segs.flatMap (47 :: ·), https⟩, env (lit "AZURE_STORAGE_KEY"), [], [], 0⟩) := by
  have hpre : (startInfo requested env).pathPrefix = [] := by
    by_cases h : requested = [] <;> simp [startInfo, h, Info.empty, fromUri]
  have hname : (startInfo requested env).name = if requested = [] then env (lit "AZURE_STORAGE_ACCOUNT") else requested := by
    by_cases h : requested = [] <;> simp [startInfo, h, fromUri]
  have he := C108_endpoint https host port segs slash [] [] (startInfo requested env) (by simp [Blank]) (by simp [Blank]) hh h47 h58 hp hs hpre hsp
  simp only [List.nil_append, List.append_nil] at he
  have hne0 : urlText https host port segs slash ≠ [] := by
    cases https <;> simp [urlText, lit]
  have hr : resolveFromEnv env (startInfo requested env) =
      .ok { startInfo requested env with endpoint := hostPort https host port, https := https, pathPrefix := segs.flatMap (47 :: ·) } := by
    rcases hb with hb | ⟨hb, hb2⟩
    · simp only [resolveFromEnv, hb, hne0, ne_eq, not_false_eq_true, if_true, he, ha, if_false]
    · simp only [resolveFromEnv, hb, hb2, hne0, ne_eq, not_true, not_false_eq_true, if_true, he, ha, if_false]
  rw [init, no_conn hc]
  simp only [tryEnv, hr, ne_eq, hk, not_false_eq_true, if_true, ha, if_false]
  simp [setCredentials, hname]

/-! ### Managed identity -/

/-- **The metadata service is asked for a token for storage**, and for the identity that `AZURE_CLIENT_ID` names, whatever bytes are in it. -/
theorem C108_token_request (clientId : Str) : ∃ u, imdsTarget clientId = some u ∧
    Reads u [lit "metadata", lit "identity", lit "oauth2", lit "token"] ([(lit "api-version", lit "2018-02-01"), (lit "resource", lit "https://storage.azure.com/")] ++ if clientId = [] then [] else [(lit "client_id", clientId)]) := by
  have h1 : Reads (lit "/metadata" ++ lit "/identity" ++ lit "/oauth2" ++ lit "/token") [lit "metadata", lit "identity", lit "oauth2", lit "token"] [] :=
    reads_plain (v := lit "token") (reads_plain (v := lit "oauth2") (reads_plain (v := lit "identity") (reads_plain (v := lit "metadata") reads_nil (by decide +kernel)) (by decide +kernel)) (by decide +kernel)) (by decide +kernel)
  have h2 := reads_arg (k := lit "resource") (reads_first (k := lit "api-version") (v := lit "2018-02-01") h1 (by decide +kernel) (by decide +kernel) (means_self (by decide +kernel))) (by simp) (by decide +kernel)
    (enc_val (lit "https://storage.azure.com/")) (enc_means _)
  obtain ⟨u, hu, hr⟩ := optArg_reads (t := lit "&client_id=") (k := lit "client_id") (value := clientId) (by decide +kernel) h2 (by simp) (by decide +kernel)
  refine ⟨u, ?_, by simpa using hr⟩
  have e1 : lit "/metadata/identity/oauth2/token?api-version=2018-02-01&resource=" =
      lit "/metadata" ++ lit "/identity" ++ lit "/oauth2" ++ lit "/token" ++ (63 :: lit "api-version" ++ 61 :: lit "2018-02-01") ++ (38 :: lit "resource" ++ [61]) := by decide +kernel
  rw [← hu, imdsTarget, append_enc, Option.bind_some, e1]
  simp [List.append_assoc]

/-- **A token is taken to last no longer than the service says**, and a minute less if that leaves anything. -/
theorem C108_token (requested : Str) (env : Env) (imds : Str → Reply) (now : Nat) (s t : St) (h : init requested env imds now s = some (none, t)) (hm : t.mode = .bearer) :
    ∃ target e ttl, imdsTarget (env (lit "AZURE_CLIENT_ID")) = some target ∧ imds target = .doc (some t.token) e ∧ ttlOf e = some ttl ∧
      t.expire ≤ now + ttl ∧ (60 < ttl → t.expire + 60 = now + ttl) ∧ (ttl ≤ 60 → t.expire = now + ttl) := by
  rcases init_ok h with h | ⟨_, h | ⟨_, h⟩⟩
  · exact absurd hm (conn_mode h)
  · exact absurd hm (env_mode h)
  · obtain ⟨target, ttl, e, h1, h2, h3, _, ht⟩ := mi_ok h
    refine ⟨target, e, ttl, h1, h2, h3, ?_⟩
    have : t.expire = now + if 60 < ttl then ttl - 60 else ttl := by rw [ht]; rfl
    rw [this]
    by_cases hl : 60 < ttl
    · simp only [if_pos hl]; omega
    · rw [if_neg hl]
      exact ⟨Nat.le_refl _, fun h => absurd h hl, fun _ => rfl⟩

/-- **A refresh changes nothing but the token and its time**: a key or a signature stays, a failed refresh leaves all as it is, and a new token is for the same account and endpoint. -/
theorem C108_refresh (requested : Str) (env : Env) (imds imds' : Str → Reply) (now now' : Nat) (s t t' : St) (r : Option Err) (h : init requested env imds now s = some (none, t))
    (hr : refresh requested env (env (lit "AZURE_CLIENT_ID")) imds' now' t = some (r, t')) :
    t'.info = t.info ∧ t'.mode = t.mode ∧ t'.source = t.source ∧ t'.key = t.key ∧ t'.sas = t.sas ∧ (t.mode ≠ .bearer ∨ r ≠ none → t' = t) := by
  simp only [refresh] at hr
  split at hr
  · next hsrc =>
    rcases init_ok h with h | ⟨_, h | ⟨_, h⟩⟩
    · rw [(conn_ok h).2.1] at hsrc; cases hsrc
    · rw [(env_ok h).2.1] at hsrc; cases hsrc
    · obtain ⟨_, ttl, _, _, _, _, hi, ht⟩ := mi_ok h
      split at hr
      · next q hq =>
        cases hr
        obtain ⟨_, ttl', _, _, _, _, hi', ht'⟩ := mi_ok hq
        rw [hi] at hi'
        have hinfo : t.info = t'.info := Except.ok.inj hi'
        have hb : t.mode = .bearer := by rw [ht]; rfl
        have hb' : t'.mode = .bearer := by rw [ht']; rfl
        refine ⟨hinfo.symm, by rw [hb, hb'], ?_, ?_, ?_, fun h => ?_⟩
        · rw [ht, ht']; rfl
        · rw [ht, ht']; rfl
        · rw [ht, ht']; rfl
        · rcases h with h | h
          · exact absurd hb h
          · exact absurd rfl h
      · cases hr
      · cases hr; exact ⟨rfl, rfl, rfl, rfl, rfl, fun _ => rfl⟩
  · cases hr; exact ⟨rfl, rfl, rfl, rfl, rfl, fun _ => rfl⟩

/-- **`Init` comes to an end in every environment**, as long as the metadata service sends no empty body and no document that is not an object. -/
theorem C108_defined_partial (requested : Str) (env : Env) (imds : Str → Reply) (now : Nat) (s : St) (h : ∀ t, imds t ≠ .empty ∧ imds t ≠ .notObject) : init requested env imds now s ≠ none := by
  have hm : tryManagedIdentity requested env (env (lit "AZURE_CLIENT_ID")) imds now ≠ .ub := by
    obtain ⟨u, hu, _⟩ := C108_token_request (env (lit "AZURE_CLIENT_ID"))
    simp only [tryManagedIdentity, hu]
    split
    · simp
    · split <;> first | simp | skip
      · next he => exact (h u).1 he
      · next he => exact (h u).2 he
      · split <;> simp
  simp only [init]
  cases hc : tryConnectionString requested env with
  | ub => exact absurd hc (conn_not_ub _ _)
  | ok t => simp
  | err e =>
    cases he : tryEnv requested env with
    | ub => exact absurd he (env_not_ub _ _)
    | ok t => simp
    | err e =>
      cases hi : tryManagedIdentity requested env (env (lit "AZURE_CLIENT_ID")) imds now with
      | ub => exact absurd hi hm
      | ok t => simp
      | err e => simp

/-- The time of a token may be written as a text. -/
theorem C108_ttl_text (n : Nat) (h : n < 2 ^ 32) : ttlOf (.str (decimal n)) = some n ∧ ttlOf (.uint n) = some n := by
  refine ⟨?_, rfl⟩
  have hc : ∀ x ∈ decimal n, 48 ≤ x.toNat ∧ x.toNat ≤ 57 := fun x hx => decimal_chars n x hx
  have hsp : ∀ x ∈ decimal n, isSpace x = false := fun x hx => by
    have := hc x hx
    simp only [isSpace, Bool.or_eq_false_iff, beq_eq_false_iff_ne, Bool.and_eq_false_iff, decide_eq_false_iff_not, UInt8.not_le]
    refine ⟨fun e => by subst e; simp at this, .inr ?_⟩
    rw [UInt8.lt_iff_toNat_lt]
    have e13 : (13 : UInt8).toNat = 13 := rfl
    omega
  have hst : strip (decimal n) = decimal n := by
    have := strip_between (b := []) (d := []) (s := decimal n) (by simp [Blank]) ⟨fun x hx => hsp x (List.mem_of_mem_head? hx), fun x hx => hsp x (List.mem_of_getLast? hx)⟩ (by simp [Blank])
    simpa using this
  have hne : decimal n ≠ [] := by
    rw [decimal]; split <;> simp
  have hall : (decimal n).all (fun c => 48 ≤ c && c ≤ 57) = true := by
    rw [List.all_eq_true]
    intro x hx
    have := hc x hx
    simp only [Bool.and_eq_true, decide_eq_true_eq, UInt8.le_iff_toNat_le]
    exact this
  have hv : (decimal n).foldl (fun a c => 10 * a + (c.toNat - 48)) 0 = n := decimal_value n
  simp only [ttlOf, simpleAtou, hst]
  split
  · next r hr =>
    have := hc 43 (by rw [hr]; simp)
    exact absurd this.1 (by decide)
  · rw [if_neg (by simp [hne, hall]), hv, if_pos h]

/-! ### Where the credentials are not what one would expect -/

/-- **When an account is asked for, the endpoint of the connection string is dropped**: its key is used with public Azure, whatever `BlobEndpoint` and `EndpointSuffix` say and whatever the environment says. -/
theorem C108_requested_drops_endpoint (requested : Str) (hr : requested ≠ []) (env : Env) (imds : Str → Reply) (now : Nat) (s t : St) (h : init requested env imds now s = some (none, t)) (hs : t.source = .connectionString) :
    t.info = ⟨requested ++ lit ".blob." ++ lit "core.windows.net", requested, [], true⟩ := by
  rcases init_ok h with h | ⟨_, h | ⟨_, h⟩⟩
  · exact (conn_ok h).2.2.1 hr
  · rw [(env_ok h).2.1] at hs; cases hs
  · obtain ⟨_, _, _, _, _, _, _, ht⟩ := mi_ok h
    rw [ht] at hs; cases hs

def St.new : St := ⟨.none, .none, Info.empty, [], [], [], 0⟩

def envConn (text : String) : Env := fun n => if n = lit "AZURE_STORAGE_CONNECTION_STRING" then lit text else []

/-- The emulator's connection string, without and with its account asked for. -/
example : init [] (envConn "AccountName=dev1;AccountKey=a2V5==;BlobEndpoint=http://127.0.0.1:10000/dev1/") (fun _ => .fail) 0 St.new =
      some (none, ⟨.connectionString, .sharedKey, ⟨lit "127.0.0.1:10000", lit "dev1", lit "/dev1", false⟩, lit "a2V5==", [], [], 0⟩) ∧
    init (lit "dev1") (envConn "AccountName=dev1;AccountKey=a2V5==;BlobEndpoint=http://127.0.0.1:10000/dev1/") (fun _ => .fail) 0 St.new =
      some (none, ⟨.connectionString, .sharedKey, ⟨lit "dev1.blob.core.windows.net", lit "dev1", [], true⟩, lit "a2V5==", [], [], 0⟩) := by decide +kernel

/-- **An endpoint without a scheme is used without encryption.** -/
theorem C108_no_scheme_plain : parseEndpoint (lit "acct.blob.core.windows.net") Info.empty = some ⟨lit "acct.blob.core.windows.net", [], [], false⟩ := by decide +kernel

/-- **The key of the environment is used for any account that is asked for**, though `AZURE_STORAGE_ACCOUNT` says that it is another's. -/
theorem C108_other_key (requested : Str) (hr : requested ≠ []) (env : Env) (imds : Str → Reply) (now : Nat) (s : St) (hc : env (lit "AZURE_STORAGE_CONNECTION_STRING") = [])
    (hk : env (lit "AZURE_STORAGE_KEY") ≠ []) (h1 : env (lit "AZURE_STORAGE_BLOB_ENDPOINT") = []) (h2 : env (lit "AZURE_STORAGE_ACCOUNT_URL") = []) :
    init requested env imds now s = some (none, ⟨.env, .sharedKey, ⟨requested ++ lit ".blob." ++ lit "core.windows.net", requested, [], true⟩, env (lit "AZURE_STORAGE_KEY"), [], [], 0⟩) := by
  have hn : (fromUri requested).name ≠ [] := hr
  have hres : resolveFromEnv env (startInfo requested env) = .ok (fromUri requested) := by
    rw [start_requested hr]
    simp only [resolveFromEnv, h1, h2, ne_eq, not_true, if_false, hn, not_false_eq_true, if_true]
    rfl
  rw [init, no_conn hc]
  simp only [tryEnv, hres, ne_eq, hk, not_false_eq_true, if_true, hn, if_false]
  rfl

/-- **An empty body from the metadata service is undefined behaviour.** -/
theorem C108_empty_body : init (lit "acct") (fun _ => []) (fun _ => .empty) 0 St.new = none := by decide +kernel

/-! ### Concrete cases -/

/-- A connection string with blanks, an empty part, names in other cases and a key with `=`. -/
def sample : List Part := [.setting (lit " ") (lit "accountname") (lit " ") (lit " ") (lit "acct") (lit " "), .blank (lit " "), .setting [] (lit "ACCOUNTKEY") [] [] (lit "a2V5==") [], .blank []]

example : (∀ p ∈ sample, p.Ok) ∧ connText sample = lit " accountname = acct ; ;ACCOUNTKEY=a2V5==;" ∧ setting sample (lit "AccountName") = lit "acct" ∧ setting sample (lit "AccountKey") = lit "a2V5==" ∧
    setting sample (lit "BlobEndpoint") = [] ∧ lower (setting sample (lit "UseDevelopmentStorage")) ≠ lit "true" := by
  refine ⟨?_, by decide +kernel, by decide +kernel, by decide +kernel, by decide +kernel, by decide +kernel⟩
  intro p hp
  simp only [sample, List.mem_cons, List.mem_nil_iff, or_false] at hp
  rcases hp with rfl | rfl | rfl | rfl
  · refine ⟨by decide +kernel, by decide +kernel, by decide +kernel, by decide +kernel, ⟨?_, ?_⟩, ⟨?_, ?_⟩, by decide +kernel, by decide +kernel, by decide +kernel, by decide +kernel⟩ <;>
      (intro x hx; simp [lit] at hx; subst hx; decide)
  · show Blank (lit " "); decide +kernel
  · refine ⟨by decide +kernel, by decide +kernel, by decide +kernel, by decide +kernel, ⟨?_, ?_⟩, ⟨?_, ?_⟩, by decide +kernel, by decide +kernel, by decide +kernel, by decide +kernel⟩ <;>
      (intro x hx; simp [lit] at hx; subst hx; decide)
  · show Blank []; simp [Blank]

/-- A token of the managed identity, and its refresh. -/
example : init (lit "acct") (fun _ => []) (fun _ => .doc (some (lit "tok")) (.str (lit "3600"))) 1000 St.new = some (none, ⟨.managedIdentity, .bearer, fromUri (lit "acct"), [], [], lit "tok", 4540⟩) ∧
    refresh (lit "acct") (fun _ => []) [] (fun _ => .doc (some (lit "tok2")) (.uint 30)) 5000 ⟨.managedIdentity, .bearer, fromUri (lit "acct"), [], [], lit "tok", 4540⟩ =
      some (none, ⟨.managedIdentity, .bearer, fromUri (lit "acct"), [], [], lit "tok2", 5030⟩) ∧
    init (lit "acct") (fun _ => []) (fun _ => .status) 1000 St.new = some (some .permissionDenied, St.new) := by decide +kernel

end Verif.AzureCreds
