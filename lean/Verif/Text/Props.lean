import Verif.Text.Model
import Verif.Text.Spec
/-!
C47 (ini), C48 (URLs), C50 (query strings).
-/
namespace Verif.Text
open Spec

theorem find_take_drop {c : Byte} {s : Str} : match find c s with
    | some i => s.take i = s.takeWhile (· != c) ∧ s.drop (i + 1) = (s.dropWhile (· != c)).drop 1
    | none => s.takeWhile (· != c) = s ∧ (s.dropWhile (· != c)).drop 1 = [] := by
  induction s with
  | nil => simp [find]
  | cons d s ih =>
    simp only [find]
    by_cases h : d = c
    · simp [h]
    · have hb : (d == c) = false := by simp [h]
      have hb' : (d != c) = true := by simp [h]
      simp only [hb, Bool.false_eq_true, if_false]
      rw [List.takeWhile_cons_of_pos (p := (· != c)) hb', List.dropWhile_cons_of_pos (p := (· != c)) hb']
      cases hf : find c s with
      | none => rw [hf] at ih; simp only [Option.map_none]; exact ⟨by rw [ih.1], ih.2⟩
      | some i => rw [hf] at ih; simp only [Option.map_some]; simp only [List.take_succ_cons, List.drop_succ_cons]; exact ⟨by rw [ih.1], ih.2⟩

/-! ### C50: query strings -/

/-- `ParseQuery`: the text before the first `?` and the text after it. -/
theorem C50_parse_query (s : Str) :
    63 ∉ (parseQuery s).1 ∧
    ((63 ∈ s ∧ s = (parseQuery s).1 ++ [63] ++ (parseQuery s).2) ∨ (63 ∉ s ∧ parseQuery s = (s, []))) := by
  unfold parseQuery
  cases h : find 63 s with
  | none => have := find_none.1 h; exact ⟨this, .inr ⟨this, rfl⟩⟩
  | some i =>
    have := find_some.1 h
    refine ⟨this.2, .inl ⟨?_, by simpa using this.1⟩⟩
    have h1 := this.1
    rw [h1]; simp

/-- `SplitQuery`: the arguments are the `&`-separated pieces of the query, nothing is lost or invented; in each one the key is the
text before the first `=`. -/
theorem C50_split_query (q : Str) :
    ∃ args : List Str, q = List.intercalate [38] args ∧ (∀ a ∈ args, 38 ∉ a) ∧ args.length = (splitQuery q).length ∧
      ∀ (i : Nat) a k v, args[i]? = some a → (splitQuery q)[i]? = some (k, v) →
        61 ∉ k ∧ ((61 ∈ a ∧ a = k ++ [61] ++ v) ∨ (61 ∉ a ∧ a = k ∧ v = [])) := by
  refine ⟨split 38 q, (split_spec 38 q).1, (split_spec 38 q).2, by simp [splitQuery], ?_⟩
  intro i a k v ha hk
  rw [splitQuery, List.getElem?_map, ha] at hk
  simp only [Option.map_some, Option.some.injEq] at hk
  unfold splitArg at hk
  cases h : find 61 a with
  | none =>
    rw [h] at hk; simp at hk
    have := find_none.1 h
    exact ⟨hk.1 ▸ this, .inr ⟨this, hk.1, hk.2⟩⟩
  | some j =>
    rw [h] at hk; simp at hk
    have := find_some.1 h
    obtain ⟨rfl, rfl⟩ := hk
    refine ⟨this.2, .inl ⟨?_, by simpa using this.1⟩⟩
    have h1 := this.1
    rw [h1]; simp

example : parseQuery (lit "/a?x=1?") = (lit "/a", lit "x=1?") := by decide +kernel
example : splitQuery (lit "a=1&b&c==") = [(lit "a", lit "1"), (lit "b", []), (lit "c", lit "=")] := by decide +kernel

/-! ### C48: URLs -/

/-- `ParseHttpUrl` loses nothing: the URL is the scheme (or none), the host, a colon and the port (or no colon and the scheme's
default port), and the path (or none, and then the path is "/"). The host and port have no slash, the port no colon. -/
theorem C48_parts (uri : Str) :
    let r := parseHttpUrl uri
    (∃ scheme authority rest, uri = scheme ++ authority ++ rest ∧
      (scheme = lit "https://" ∧ r.https = true ∨
        r.https = false ∧ ¬ lit "https://" <+: uri ∧ (scheme = lit "http://" ∨ scheme = [] ∧ ¬ lit "http://" <+: uri)) ∧
      47 ∉ authority ∧
      (rest = r.path ∧ r.path.head? = some 47 ∨ rest = [] ∧ r.path = lit "/") ∧
      (authority = r.host ++ [58] ++ r.port ∧ 58 ∉ r.port ∨
        authority = r.host ∧ 58 ∉ authority ∧ r.port = if r.https then lit "443" else lit "80")) := by
  have key : ∀ (https : Bool) (u : Str), let r := urlRest https u
      r.https = https ∧ ∃ authority rest, u = authority ++ rest ∧ 47 ∉ authority ∧
        (rest = r.path ∧ r.path.head? = some 47 ∨ rest = [] ∧ r.path = lit "/") ∧
        (authority = r.host ++ [58] ++ r.port ∧ 58 ∉ r.port ∨
          authority = r.host ∧ 58 ∉ authority ∧ r.port = if r.https then lit "443" else lit "80") := by
    intro https u
    have hsl : ∃ rest, u = upTo u (find 47 u) ++ rest ∧ 47 ∉ upTo u (find 47 u) ∧
        (rest = urlPath u ∧ (urlPath u).head? = some 47 ∨ rest = [] ∧ urlPath u = lit "/") := by
      unfold urlPath
      cases h : find 47 u with
      | none => exact ⟨[], by simp [upTo], find_none.1 h, .inr ⟨rfl, rfl⟩⟩
      | some i =>
        have := find_some.1 h
        refine ⟨u.drop i, by simp [upTo], this.2, .inl ⟨rfl, ?_⟩⟩
        have h1 : u.drop i = 47 :: u.drop (i + 1) := by
          have h2 : u = u.take i ++ u.drop i := by simp
          exact List.append_cancel_left (h2.symm.trans this.1)
        simp only [h1, List.head?_cons]
    obtain ⟨rest, h1, h2, h3⟩ := hsl
    simp only [urlRest]
    generalize upTo u (find 47 u) = a at *
    generalize urlPath u = p at *
    unfold urlHostPort
    cases h : rfind 58 a with
    | none =>
      have := rfind_none.1 h
      exact ⟨trivial, a, rest, h1, h2, h3, .inr ⟨rfl, this, rfl⟩⟩
    | some c =>
      have := rfind_some h
      exact ⟨trivial, a, rest, h1, h2, h3, .inl ⟨by simpa using this.1, this.2⟩⟩
  intro r
  by_cases hs : lit "https://" <+: uri
  · have hr : r = urlRest true (uri.drop (lit "https://").length) := by
      simp only [r, parseHttpUrl, consumePrefix, List.isPrefixOf_iff_prefix, hs, if_true]
    obtain ⟨h1, a, rest, h2, h3⟩ := key true (uri.drop (lit "https://").length)
    rw [← hr] at h1 h3
    refine ⟨lit "https://", a, rest, ?_, .inl ⟨rfl, h1⟩, h3⟩
    rw [List.append_assoc, ← h2]
    exact List.prefix_iff_eq_append.1 hs |>.symm
  · by_cases hh : lit "http://" <+: uri
    · have hr : r = urlRest false (uri.drop (lit "http://").length) := by
        simp only [r, parseHttpUrl, consumePrefix, List.isPrefixOf_iff_prefix, hs, hh, if_true, if_false, Bool.false_eq_true]
      obtain ⟨h1, a, rest, h2, h3⟩ := key false (uri.drop (lit "http://").length)
      rw [← hr] at h1 h3
      refine ⟨lit "http://", a, rest, ?_, .inr ⟨h1, hs, .inl rfl⟩, h3⟩
      rw [List.append_assoc, ← h2]
      exact (List.prefix_iff_eq_append.1 hh).symm
    · have hr : r = urlRest false uri := by
        simp only [r, parseHttpUrl, consumePrefix, List.isPrefixOf_iff_prefix, hs, hh, if_false, Bool.false_eq_true]
      obtain ⟨h1, a, rest, h2, h3⟩ := key false uri
      rw [← hr] at h1 h3
      exact ⟨[], a, rest, by simpa using h2, .inr ⟨h1, hs, .inr ⟨rfl, hh⟩⟩, h3⟩

/-- Parsing what `host`, `port` and `path` are put together to gives them back. -/
theorem C48_compose (https : Bool) (host port path : Str) (hh : 47 ∉ host) (hp : 47 ∉ port) (hc : 58 ∉ port)
    (hpath : path.head? = some 47) :
    parseHttpUrl ((if https then lit "https://" else lit "http://") ++ host ++ [58] ++ port ++ path) =
      ⟨host, port, path, https⟩ := by
  have hpre : consumePrefix (lit "https://") ((if https then lit "https://" else lit "http://") ++ host ++ [58] ++ port ++ path) =
      (https, if https then host ++ [58] ++ port ++ path else lit "http://" ++ (host ++ [58] ++ port ++ path)) := by
    cases https <;> simp [consumePrefix, lit, List.isPrefixOf]
  have hpre2 : consumePrefix (lit "http://") (lit "http://" ++ (host ++ [58] ++ port ++ path)) =
      (true, host ++ [58] ++ port ++ path) := by simp [consumePrefix, lit, List.isPrefixOf]
  have hu : ∀ u, u = host ++ [58] ++ port ++ path → find 47 u = some (host ++ [58] ++ port).length := by
    rintro u rfl
    cases path with
    | nil => simp at hpath
    | cons c p =>
      simp at hpath; subst hpath
      rw [find_some]
      rw [List.take_left, ← List.drop_drop, List.drop_left]
      refine ⟨by simp, ?_⟩
      simp [hh, hp]
  have hr : rfind 58 (host ++ [58] ++ port) = some host.length := by
    clear hpre hpre2 hu hh hp
    induction host with
    | nil => have := rfind_none.2 hc; simp [rfind, this]
    | cons d host ih => simp only [List.cons_append, rfind, ih, List.length_cons]
  cases https
  · simp only [Bool.false_eq_true, if_false] at hpre ⊢
    simp only [parseHttpUrl, urlRest, urlPath, urlHostPort, hpre, Bool.false_eq_true, if_false, hpre2, hu _ rfl, upTo]
    rw [List.take_left, hr]
    simp only []
    rw [List.append_assoc, List.take_left, ← List.drop_drop, List.drop_left]
    simp
  · simp only [if_true] at hpre ⊢
    simp only [parseHttpUrl, urlRest, urlPath, urlHostPort, hpre, if_true, hu _ rfl, upTo]
    rw [List.take_left, hr]
    simp only []
    rw [List.append_assoc, List.take_left, ← List.drop_drop, List.drop_left]
    simp

example : parseHttpUrl (lit "https://s3.aws.com/b/k:1") = ⟨lit "s3.aws.com", lit "443", lit "/b/k:1", true⟩ := by decide +kernel
example : parseHttpUrl (lit "localhost:9000") = ⟨lit "localhost", lit "9000", lit "/", false⟩ := by decide +kernel

/-- Disagreement: an IPv6 literal without a port is cut at its last colon. -/
theorem C48_ipv6_cut : parseHttpUrl (lit "http://[::1]/x") = ⟨lit "[:", lit "1]", lit "/x", false⟩ := by decide +kernel

/-- Disagreement: a query that follows the authority directly becomes part of the host. -/
theorem C48_query_in_host : parseHttpUrl (lit "http://h?a=b") = ⟨lit "h?a=b", lit "80", lit "/", false⟩ := by decide +kernel

/-! ### C47: ini -/

theorem splitKv_eq (l : Str) : (strip (splitKv l).1, strip (splitKv l).2) = keyVal l := by
  have := find_take_drop (c := 61) (s := l)
  unfold splitKv keyVal beforeEq afterEq
  cases h : find 61 l with
  | none => rw [h] at this; simp only [this.1, this.2]
  | some i => rw [h] at this; simp only [this.1, this.2]

theorem iniLine_eq (sect : Str) (b : Bool) (raw : Str) :
    iniLine sect b raw =
      (if isHeader (strip raw) && !sect.isEmpty then decide (strip raw = [91] ++ sect ++ [93]) else b,
       if b && isData (strip raw) then [keyVal (strip raw)] else []) := by
  unfold iniLine
  rw [← splitKv_eq]
  generalize strip raw = l
  simp only []
  cases l with
  | nil => simp [isHeader, isData]
  | cons c l =>
    by_cases h1 : c = 35
    · simp [h1, isHeader, isData]
    · by_cases h2 : c = 59
      · simp [h2, isHeader, isData]
      · by_cases h3 : c = 91
        · subst h3
          cases sect <;> simp [isHeader, isData]
          rw [Bool.eq_iff_iff]; simp
        · cases b <;> simp [h1, h2, h3, isHeader, isData]

theorem iniLines_append (sect : Str) (b : Bool) (ls : List Str) (l : Str) :
    iniLines sect b (ls ++ [l]) =
      ((iniLine sect (iniLines sect b ls).1 l).1, (iniLines sect b ls).2 ++ (iniLine sect (iniLines sect b ls).1 l).2) := by
  induction ls generalizing b with
  | nil => simp [iniLines]
  | cons x ls ih => simp only [List.cons_append, iniLines]; rw [ih]; simp

theorem snoc_ind {α : Type} {P : List α → Prop} (h0 : P []) (hs : ∀ l a, P l → P (l ++ [a])) : ∀ l, P l := by
  intro l
  have : ∀ r : List α, P r.reverse := by
    intro r
    induction r with
    | nil => exact h0
    | cons a r ih => rw [List.reverse_cons]; exact hs _ _ ih
  simpa using this l.reverse

theorem inSection_prefix (ls : List Str) (l sect : Str) (i : Nat) (h : i ≤ ls.length) :
    inSection (ls ++ [l]) sect i = inSection ls sect i := by
  simp only [inSection, List.take_append_of_le_length h]

theorem filterMap_congr' {α β : Type} {f g : α → Option β} : ∀ {l : List α}, (∀ x ∈ l, f x = g x) → l.filterMap f = l.filterMap g := by
  intro l
  induction l with
  | nil => simp
  | cons a l ih =>
    intro h
    rw [List.filterMap_cons, List.filterMap_cons, h a (by simp), ih (fun x hx => h x (by simp [hx]))]

theorem iniLines_spec (sect : Str) (ls : List Str) :
    iniLines sect sect.isEmpty ls = (inSection ls sect ls.length, entries ls sect) := by
  induction ls using snoc_ind with
  | h0 => cases sect <;> simp [iniLines, inSection, entries]
  | hs ls l ih =>
    rw [iniLines_append, ih, iniLine_eq]
    refine Prod.ext ?_ ?_
    · simp only [inSection, List.length_append, List.length_cons, List.length_nil, List.take_length]
      rw [show ls.length + (0 + 1) = (ls ++ [l]).length by simp, List.take_length, List.map_append, List.filter_append]
      cases hh : isHeader (strip l)
      · simp [List.filter, hh]
      · cases sect with
        | nil => simp
        | cons c sect => simp [List.filter, hh]
    · simp only [entries, List.length_append, List.length_cons, List.length_nil, Nat.zero_add, List.range_succ, List.filterMap_append]
      congr 1
      · apply filterMap_congr'
        intro i hi
        rw [List.mem_range] at hi
        rw [List.getElem?_append_left hi, inSection_prefix _ _ _ _ (by omega)]
      · rw [List.filterMap_cons, List.filterMap_nil]
        simp only [List.getElem?_append_right (Nat.le_refl _), Nat.sub_self, List.getElem?_cons_zero, inSection_prefix _ _ _ _ (Nat.le_refl _)]
        split <;> simp_all

/-- `ParseIniSection` calls back exactly once for every data line of the section, in order, with the key and the value stripped of
white space; comments, blank lines and headers are skipped and nothing from other sections is reported. -/
theorem C47_ini_section (content sect : Str) :
    ∃ lines : List Str, content = List.intercalate [10] lines ∧ (∀ l ∈ lines, 10 ∉ l) ∧
      parseIniSection content sect = entries lines sect :=
  ⟨split 10 content, (split_spec 10 content).1, (split_spec 10 content).2, by rw [parseIniSection, iniLines_spec]⟩

example : parseIniSection (lit "k0=v\n[a]\n k1 = v 1 \n; c\n#x=y\n\n[b]\nk2=2\n[a]\nk3=a=b") (lit "a") =
    [(lit "k1", lit "v 1"), (lit "k3", lit "a=b")] := by decide +kernel
example : entries (split 10 (lit "k0=v\n[a]\n k1 = v 1 \n; c\n#x=y\n\n[b]\nk2=2")) (lit "a") = [(lit "k1", lit "v 1")] := by decide +kernel

end Verif.Text
