import Verif.Text.Props
/-!
C47 for `ini::Parse`.
-/
namespace Verif.Text
open Spec

/-- Not the start of a comment. -/
def plain (c : Byte) : Bool := c != 59 && c != 35

theorem upTo_first (s : Str) : upTo s (findFirstOf (fun c => c == 59 || c == 35) s) = s.takeWhile plain := by
  induction s with
  | nil => simp [findFirstOf, upTo]
  | cons d s ih =>
    by_cases h : plain d = true
    · have h' : (d == 59 || d == 35) = false := by
        simp only [plain, Bool.and_eq_true, bne_iff_ne] at h; simp [h]
      rw [List.takeWhile_cons_of_pos h]
      simp only [findFirstOf, h', Bool.false_eq_true, if_false]
      cases hf : findFirstOf (fun c => c == 59 || c == 35) s with
      | none => rw [hf] at ih; simp only [upTo, Option.map_none] at ih ⊢; rw [← ih]
      | some i => rw [hf] at ih; simp only [upTo, Option.map_some, List.take_succ_cons] at ih ⊢; rw [← ih]
    · have h' : (d == 59 || d == 35) = true := by
        simp only [plain, Bool.and_eq_true, bne_iff_ne] at h
        simp only [Bool.or_eq_true, beq_iff_eq]
        by_cases h2 : d = 59
        · exact .inl h2
        · exact .inr (Classical.byContradiction fun h3 => h ⟨h2, h3⟩)
      rw [List.takeWhile_cons_of_neg h]
      simp [findFirstOf, h', upTo]

theorem space_plain {c : Byte} (h : isSpace c = true) : plain c = true := by
  simp only [isSpace, plain, Bool.or_eq_true, beq_iff_eq, Bool.and_eq_true, decide_eq_true_eq, bne_iff_ne] at *
  rcases h with rfl | ⟨_, h⟩
  · decide
  · constructor <;> (rintro rfl; revert h; decide)

theorem space_ne_eq {c : Byte} (h : isSpace c = true) : c ≠ 61 := by
  rintro rfl; revert h; decide

theorem strip_append_space (s b : Str) (hb : ∀ x ∈ b, isSpace x = true) : strip (s ++ b) = strip s := by
  obtain ⟨⟨a, c, h1, h2, h3⟩, h4, h5⟩ := strip_spec s
  symm
  apply stripped_unique
  refine ⟨⟨a, c ++ b, ?_, h2, ?_⟩, h4, h5⟩
  · have : s ++ b = (a ++ strip s ++ c) ++ b := by rw [← h1]
    rw [this]; simp
  · intro x hx
    rcases List.mem_append.1 hx with h | h
    · exact h3 x h
    · exact hb x h

theorem strip_space_append (s b : Str) (hb : ∀ x ∈ b, isSpace x = true) : strip (b ++ s) = strip s := by
  obtain ⟨⟨a, c, h1, h2, h3⟩, h4, h5⟩ := strip_spec s
  symm
  apply stripped_unique
  refine ⟨⟨b ++ a, c, ?_, ?_, h3⟩, h4, h5⟩
  · have : b ++ s = b ++ (a ++ strip s ++ c) := by rw [← h1]
    rw [this]; simp
  · intro x hx
    rcases List.mem_append.1 hx with h | h
    · exact hb x h
    · exact h2 x h

theorem takeWhile_append_all {p : Byte → Bool} (a s : Str) (h : ∀ x ∈ a, p x = true) : (a ++ s).takeWhile p = a ++ s.takeWhile p := by
  induction a with
  | nil => rfl
  | cons x a ih =>
    rw [List.cons_append, List.takeWhile_cons_of_pos (h x (by simp)), ih (fun y hy => h y (by simp [hy]))]; rfl

theorem dropWhile_append_all {p : Byte → Bool} (a s : Str) (h : ∀ x ∈ a, p x = true) : (a ++ s).dropWhile p = s.dropWhile p := by
  induction a with
  | nil => rfl
  | cons x a ih =>
    rw [List.cons_append, List.dropWhile_cons_of_pos (h x (by simp)), ih (fun y hy => h y (by simp [hy]))]

theorem takeWhile_append_some {p : Byte → Bool} (a s : Str) (h : ∃ x ∈ a, p x = false) :
    (a ++ s).takeWhile p = a.takeWhile p ∧ (a ++ s).dropWhile p = a.dropWhile p ++ s := by
  induction a with
  | nil => simp at h
  | cons x a ih =>
    by_cases hx : p x = true
    · have : ∃ y ∈ a, p y = false := by
        obtain ⟨y, hy, h⟩ := h
        rcases List.mem_cons.1 hy with rfl | hy
        · rw [hx] at h; cases h
        · exact ⟨y, hy, h⟩
      rw [List.cons_append, List.takeWhile_cons_of_pos hx, List.takeWhile_cons_of_pos hx, List.dropWhile_cons_of_pos hx,
        List.dropWhile_cons_of_pos hx, (ih this).1, (ih this).2]
      exact ⟨rfl, rfl⟩
    · rw [List.cons_append, List.takeWhile_cons_of_neg hx, List.takeWhile_cons_of_neg hx, List.dropWhile_cons_of_neg hx,
        List.dropWhile_cons_of_neg hx]
      exact ⟨rfl, rfl⟩

/-- What the code looks at, and what it should look at. -/
theorem body_eq (l : Str) : body l = strip ((strip l).takeWhile plain) := by
  obtain ⟨⟨a, b, h1, h2, h3⟩, _, _⟩ := strip_spec l
  have hb : body l = strip (l.takeWhile plain) := rfl
  rw [hb]
  generalize strip l = t at *
  subst h1
  rw [List.append_assoc, takeWhile_append_all a _ (fun x hx => space_plain (h2 x hx)), strip_space_append _ _ h2]
  by_cases h : ∃ x ∈ t, plain x = false
  · rw [(takeWhile_append_some t b h).1]
  · have h' : ∀ x ∈ t, plain x = true := by
      intro x hx
      cases hp : plain x with
      | true => rfl
      | false => exact absurd ⟨x, hx, hp⟩ h
    rw [takeWhile_append_all t _ h', strip_append_space _ _ (fun x hx => h3 x (List.takeWhile_subset _ hx))]
    have := takeWhile_append_all t [] h'
    simp only [List.append_nil, List.takeWhile_nil] at this
    rw [this]

theorem cut_shape (l : Str) : ∃ sp, (strip l).takeWhile plain = body l ++ sp ∧ ∀ x ∈ sp, isSpace x = true := by
  obtain ⟨_, h1, _⟩ := strip_spec l
  rw [body_eq]
  generalize hw : (strip l).takeWhile plain = w
  have hhead : ∀ x, w.head? = some x → isSpace x = false := by
    intro x hx
    apply h1 x
    rw [← hw] at hx
    cases h : strip l with
    | nil => rw [h] at hx; simp at hx
    | cons y ys =>
      rw [h] at hx
      by_cases hy : plain y = true
      · rw [List.takeWhile_cons_of_pos hy] at hx; exact hx
      · rw [List.takeWhile_cons_of_neg hy] at hx; simp at hx
  obtain ⟨⟨a, b, h2, h3, h4⟩, h5, h6⟩ := strip_spec w
  cases a with
  | nil => exact ⟨b, by simpa using h2, h4⟩
  | cons x a =>
    have := hhead x (by rw [h2]; rfl)
    rw [h3 x (by simp)] at this; cases this

/-- `ini::Parse` looks for the closing bracket of a header before dropping the white space in front of a comment. A line is
unaffected if it is no header, or if nothing stands between the header and its comment. -/
def NoGap (l : Str) : Prop := headerName l ≠ none → ((strip l).takeWhile plain).getLast? = some 93

theorem keyVal_append (s sp : Str) (h : ∀ x ∈ sp, isSpace x = true) : keyVal (s ++ sp) = keyVal s := by
  unfold keyVal beforeEq afterEq
  by_cases he : ∃ x ∈ s, (x != 61) = false
  · obtain ⟨h1, h2⟩ := takeWhile_append_some s sp he
    have hne : s.dropWhile (· != 61) ≠ [] := by
      obtain ⟨x, hx, h⟩ := he
      intro hc
      obtain ⟨a, h1, h2, _⟩ := dropWhile_spec (· != 61) s
      rw [hc, List.append_nil] at h1
      have := h2 x (h1 ▸ hx)
      rw [h] at this; cases this
    rw [h1, h2]
    cases hd : s.dropWhile (· != 61) with
    | nil => exact absurd hd hne
    | cons y ys =>
      simp only [List.cons_append, List.drop_succ_cons, List.drop_zero]
      rw [strip_append_space _ _ h]
  · have h' : ∀ x ∈ s, (x != 61) = true := by
      intro x hx
      cases hp : (x != 61) with
      | true => rfl
      | false => exact absurd ⟨x, hx, hp⟩ he
    have hsp : ∀ x ∈ sp, (x != 61) = true := fun x hx => by simpa using space_ne_eq (h x hx)
    rw [takeWhile_append_all _ _ h', dropWhile_append_all _ _ h']
    have h1 : s.takeWhile (· != 61) = s := by simpa using takeWhile_append_all s [] h'
    have h2 : sp.takeWhile (· != 61) = sp := by simpa using takeWhile_append_all sp [] hsp
    have h3 : s.dropWhile (· != 61) = [] := by simpa using dropWhile_append_all s [] h'
    have h4 : sp.dropWhile (· != 61) = [] := by simpa using dropWhile_append_all sp [] hsp
    rw [h1, h2, h3, h4, strip_append_space _ _ h]

theorem iniParseLine_eq (r : Contents) (cur : Option Str) (l : Str) (hg : NoGap l) :
    iniParseLine r cur l = match headerName l with
      | some n => (r.touch n, some n)
      | none => match kvOf l with
        | some kv => (r.put (cur.getD []) kv.1 kv.2, some (cur.getD []))
        | none => (r, cur) := by
  unfold iniParseLine
  simp only [upTo_first]
  obtain ⟨sp, hsp, hall⟩ := cut_shape l
  have hbody := strip_spec ((strip l).takeWhile plain)
  rw [← body_eq] at hbody
  obtain ⟨_, hbh, hbl⟩ := hbody
  unfold NoGap at hg
  unfold kvOf
  cases hh : headerName l with
  | some n =>
    have hg := hg (by rw [hh]; simp)
    unfold headerName at hh
    split at hh
    · rename_i hc
      have hspn : sp = [] := by
        rw [hsp] at hg
        cases hs : sp.getLast? with
        | none => simpa using hs
        | some x =>
          rw [List.getLast?_append, hs] at hg
          simp at hg
          have := hall x (List.mem_of_getLast? hs)
          subst hg
          exact absurd this (by decide)
      rw [hspn, List.append_nil] at hsp
      rw [hsp]
      cases hb : body l with
      | nil => rw [hb] at hc; simp at hc
      | cons c rest =>
        rw [hb] at hc hh
        simp only [List.head?_cons, Option.some.injEq] at hc
        simp only [List.drop_succ_cons, List.drop_zero, Option.some.injEq] at hh
        obtain ⟨rfl, hc2⟩ := hc
        simp [hc2, hh]
    · cases hh
  | none =>
    have hcut : ∀ c rest, (strip l).takeWhile plain = c :: rest → ¬ (c = 91 ∧ (c :: rest).getLast? = some 93) := by
      intro c rest hcr ⟨h1, h2⟩
      have hspn : sp = [] := by
        rw [← hcr, hsp] at h2
        cases hs : sp.getLast? with
        | none => simpa using hs
        | some x =>
          rw [List.getLast?_append, hs] at h2
          simp at h2
          have := hall x (List.mem_of_getLast? hs)
          subst h2
          exact absurd this (by decide)
      rw [hspn, List.append_nil] at hsp
      unfold headerName at hh
      rw [← hsp, hcr] at hh
      simp only [List.head?_cons, h1, true_and] at hh
      rw [h1] at h2
      simp [h2] at hh
    have hmem : 61 ∈ (strip l).takeWhile plain ↔ 61 ∈ body l := by
      rw [hsp, List.mem_append]
      constructor
      · rintro (h | h)
        · exact h
        · exact absurd rfl (space_ne_eq (hall _ h))
      · exact .inl
    have hkv := splitKv_eq ((strip l).takeWhile plain)
    rw [hsp, keyVal_append _ _ hall, ← hsp] at hkv
    simp only [true_and]
    generalize hw : (strip l).takeWhile plain = w at *
    cases w with
    | nil =>
      have : ¬ 61 ∈ body l := by rw [← hmem]; simp
      simp [this]
    | cons c rest =>
      have hn := hcut c rest rfl
      have hn' : (c == 91 && (c :: rest).getLast? == some 93) = false := by
        rw [Bool.eq_false_iff]; intro h; apply hn
        simpa using h
      simp only [hn', Bool.false_eq_true, if_false]
      unfold splitKv at hkv
      cases hf : find 61 (c :: rest) with
      | none =>
        have : ¬ 61 ∈ body l := by rw [← hmem]; exact find_none.1 hf
        simp [this]
      | some i =>
        have : 61 ∈ body l := by
          rw [← hmem]; rw [(find_some.1 hf).1]; simp
        rw [hf] at hkv
        simp only [this, if_true]
        rw [← hkv]

theorem iniParse_append (r : Contents) (cur : Option Str) (ls : List Str) (l : Str) :
    iniParse r cur (ls ++ [l]) = iniParseLine (iniParse r cur ls).1 (iniParse r cur ls).2 l := by
  induction ls generalizing r cur with
  | nil => simp [iniParse]
  | cons x ls ih => simp only [List.cons_append, iniParse]; rw [ih]

theorem sectionAt_prefix (ls : List Str) (l : Str) (i : Nat) (h : i ≤ ls.length) : sectionAt (ls ++ [l]) i = sectionAt ls i := by
  simp only [sectionAt, List.take_append_of_le_length h]

theorem assigns_append (ls : List Str) (l : Str) :
    assigns (ls ++ [l]) = assigns ls ++ match kvOf l with
      | some kv => [(sectionAt ls ls.length, kv.1, kv.2)]
      | none => [] := by
  simp only [assigns, List.length_append, List.length_cons, List.length_nil, Nat.zero_add, List.range_succ, List.filterMap_append]
  congr 1
  · apply filterMap_congr'
    intro i hi
    rw [List.mem_range] at hi
    rw [List.getElem?_append_left hi, sectionAt_prefix _ _ _ (by omega)]
  · rw [List.filterMap_cons, List.filterMap_nil]
    simp only [List.getElem?_append_right (Nat.le_refl _), Nat.sub_self, List.getElem?_cons_zero, sectionAt_prefix _ _ _ (Nat.le_refl _)]
    cases kvOf l <;> rfl

theorem sectionAt_append (ls : List Str) (l : Str) :
    sectionAt (ls ++ [l]) (ls.length + 1) = (headerName l).getD (sectionAt ls ls.length) := by
  simp only [sectionAt]
  rw [show ls.length + 1 = (ls ++ [l]).length by simp, List.take_length, List.take_length, List.filterMap_append]
  cases h : headerName l <;> simp [List.filterMap_cons, h]

theorem valueOf_append (ls : List Str) (l sect key : Str) :
    valueOf (ls ++ [l]) sect key = match kvOf l with
      | some kv => if sectionAt ls ls.length = sect ∧ kv.1 = key then some kv.2 else valueOf ls sect key
      | none => valueOf ls sect key := by
  simp only [valueOf, assigns_append]
  cases kvOf l with
  | none => simp
  | some kv =>
    simp only [List.reverse_append, List.reverse_cons, List.reverse_nil, List.nil_append, List.singleton_append, List.find?_cons]
    by_cases h : sectionAt ls ls.length = sect ∧ kv.1 = key
    · simp [h.1, h.2]
    · have : (decide (sectionAt ls ls.length = sect) && decide (kv.1 = key)) = false := by
        rw [Bool.eq_false_iff]; simpa using h
      simp [this, h]

theorem iniParse_spec (ls : List Str) (hg : ∀ l ∈ ls, NoGap l) :
    ((iniParse (fun _ => none) none ls).2.getD [] = sectionAt ls ls.length) ∧
    ∀ sect key, ((iniParse (fun _ => none) none ls).1 sect).bind (· key) = valueOf ls sect key := by
  induction ls using snoc_ind with
  | h0 => simp [iniParse, sectionAt, valueOf, assigns]
  | hs ls l ih =>
    obtain ⟨h1, h2⟩ := ih (fun x hx => hg x (by simp [hx]))
    have hl := hg l (by simp)
    rw [iniParse_append, iniParseLine_eq _ _ _ hl]
    simp only [List.length_append, List.length_cons, List.length_nil, Nat.zero_add, sectionAt_append, valueOf_append]
    generalize iniParse (fun _ => none) none ls = st at *
    obtain ⟨r, cur⟩ := st
    simp only at h1 h2
    cases hh : headerName l with
    | some n =>
      have hk : kvOf l = none := by simp [kvOf, hh]
      simp only [hk, Option.getD_some, true_and]
      intro sect key
      rw [← h2]
      simp only [Contents.touch]
      by_cases hs : sect = n
      · subst hs; simp only [if_true, Option.bind_some]; cases r sect <;> rfl
      · simp [hs]
    | none =>
      simp only [Option.getD_none]
      cases hk : kvOf l with
      | none => exact ⟨h1, h2⟩
      | some kv =>
        refine ⟨by simpa using h1, ?_⟩
        intro sect key
        simp only [Contents.put, h1]
        by_cases hs : sect = sectionAt ls ls.length
        · subst hs
          simp only [if_true, Option.bind_some, true_and]
          by_cases hkk : key = kv.1
          · simp [hkk]
          · have : ¬ kv.1 = key := fun h => hkk h.symm
            simp only [hkk, this, if_false]
            rw [← h2]
            cases r (sectionAt ls ls.length) <;> rfl
        · have : ¬ (sectionAt ls ls.length = sect ∧ kv.1 = key) := fun h => hs h.1.symm
          simp only [hs, this, if_false]
          exact h2 sect key

/-- `ini::Parse` on the lines of a file gives every key of every section the value the file last assigns to it there, and no key a
value the file does not assign, if no header is separated by white space from a comment on its line. -/
theorem C47_ini_parse_partial (lines : List Str) (hg : ∀ l ∈ lines, NoGap l) (sect key : Str) :
    ((iniParse (fun _ => none) none lines).1 sect).bind (· key) = valueOf lines sect key :=
  (iniParse_spec lines hg).2 sect key

/-- Disagreement: white space between a header and its comment hides the header, and its keys go to the section before. -/
theorem C47_header_comment_lost :
    let lines := [lit "[a]", lit "k=1", lit "[b] ; second", lit "k=2"]
    valueOf lines (lit "a") (lit "k") = some (lit "1") ∧ valueOf lines (lit "b") (lit "k") = some (lit "2") ∧
    ((iniParse (fun _ => none) none lines).1 (lit "a")).bind (· (lit "k")) = some (lit "2") ∧
    ((iniParse (fun _ => none) none lines).1 (lit "b")).bind (· (lit "k")) = none := by decide +kernel

instance (l : Str) : Decidable (NoGap l) := by unfold NoGap; infer_instance

example : (∀ l ∈ [lit "top=0", lit " [a]; first", lit "k = 1 # c", lit "junk", lit "k=2"], NoGap l) ∧
    valueOf [lit "top=0", lit " [a]; first", lit "k = 1 # c", lit "junk", lit "k=2"] (lit "a") (lit "k") = some (lit "2") := by
  decide +kernel

end Verif.Text
