import Verif.Lines.Model
import Verif.Lines.Spec
/-!
C18: `LineReader` yields the lines of the stream.
-/
namespace Verif.Lines
open Verif.Text Spec

/-- Chunks a reader with pages of `page` bytes copes with: no chunk is empty or larger than a page; one that does not fill the page
ends with LF unless it is the last; no CR LF pair is cut. -/
def Fits (page : Nat) : List Str → Prop
  | [] => True
  | [c] => c ≠ [] ∧ c.length ≤ page - 1
  | c :: d :: r => c ≠ [] ∧ c.length ≤ page - 1 ∧ (c.length = page - 1 ∨ c.getLast? = some 10) ∧
      ¬ (c.getLast? = some 13 ∧ d.head? = some 10) ∧ Fits page (d :: r)

/-- Bytes still to come, in a state between reads. -/
def Okay (page : Nat) (scratch : Option Str) (cur : Str) (full : Bool) (cs : List Str) : Prop :=
  Fits page cs ∧ (scratch ≠ some []) ∧
  (cur = [] ∨ cs = [] ∨ ((full = true ∨ cur.getLast? = some 10) ∧ ¬ (cur.getLast? = some 13 ∧ (cs.headD []).head? = some 10))) ∧
  ¬ ((scratch.getD []).getLast? = some 13 ∧ (cur ++ cs.flatten).head? = some 10)

theorem split_none {s : Str} (h : 10 ∉ s) : split 10 s = [s] := by
  induction s with
  | nil => rfl
  | cons d s ih =>
    have hd : ¬ d = 10 := fun e => h (by simp [e])
    have := ih (fun e => h (by simp [e]))
    simp [split, hd, this]

theorem split_first {a b : Str} (h : 10 ∉ a) : split 10 (a ++ 10 :: b) = a :: split 10 b := by
  induction a with
  | nil => simp [split]
  | cons d a ih =>
    have hd : ¬ d = 10 := fun e => h (by simp [e])
    have := ih (fun e => h (by simp [e]))
    simp [split, hd, this]

theorem lines_none {s : Str} (h : 10 ∉ s) : lines s = if s = [] then [] else [s] := by
  simp [lines, split_none h, linesOf]

theorem lines_first {a b : Str} (h : 10 ∉ a) : lines (a ++ 10 :: b) = noCr a :: lines b := by
  rw [lines, split_first h]
  have := split_ne_nil 10 b
  cases hs : split 10 b with
  | nil => exact absurd hs this
  | cons p ps => simp [lines, linesOf, hs]

/-- What one call yields and where it leaves the reader. -/
theorem next_spec (page limit : Nat) (ln : Nat) (hp : 2 ≤ page) :
    ∀ (cs : List Str) (scratch : Option Str) (cur : Str) (full : Bool), Okay page scratch cur full cs →
      (scratch.getD [] ++ cur ++ cs.flatten).length < limit →
      (10 ∉ cur ++ cs.flatten ∧
        ∃ r', next page limit scratch cur full ln .ok (cs.map .data) =
            (if scratch.getD [] ++ cur ++ cs.flatten = [] then none else some (scratch.getD [] ++ cur ++ cs.flatten), r') ∧
          r'.cur = [] ∧ r'.src = [] ∧ r'.status = .ok ∧
          r'.lineNum = ln + if scratch.getD [] ++ cur ++ cs.flatten = [] then 0 else 1) ∨
      (∃ a b, cur ++ cs.flatten = a ++ 10 :: b ∧ 10 ∉ a ∧
        ∃ r' cs', next page limit scratch cur full ln .ok (cs.map .data) = (some (noCr (scratch.getD [] ++ a)), r') ∧
          r'.src = cs'.map .data ∧ b = r'.cur ++ cs'.flatten ∧ Okay page none r'.cur r'.full cs' ∧ r'.status = .ok ∧
          r'.lineNum = ln + 1) := by
  intro cs
  induction cs with
  | nil =>
    intro scratch cur full ⟨hf, hs0, hc, hs⟩ hl
    simp only [List.flatten_nil, List.append_nil, List.map_nil] at *
    simp only [next, scan]
    cases hfind : find 10 cur with
    | none =>
      have hn := find_none.1 hfind
      left
      refine ⟨hn, ?_⟩
      by_cases hcur : cur = []
      · subst hcur
        simp only [ne_eq, not_true_eq_false, if_false, List.append_nil]
        cases scratch with
        | none => exact ⟨_, rfl, rfl, rfl, rfl, rfl⟩
        | some s =>
          have : s ≠ [] := fun h => hs0 (by rw [h])
          simp only [atEnd, Option.getD_some, this, if_false]
          exact ⟨_, rfl, rfl, rfl, rfl, rfl⟩
      · have hne : scratch.getD [] ++ cur ≠ [] := by simp [hcur]
        have hlim : ¬ cur.length + (scratch.getD []).length ≥ limit := by simp at hl; omega
        simp only [hcur, ne_eq, not_false_eq_true, if_true, hlim, if_false, hne]
        cases full
        · exact ⟨_, rfl, rfl, rfl, rfl, rfl⟩
        · exact ⟨_, rfl, rfl, rfl, rfl, rfl⟩
    | some i =>
      obtain ⟨h1, h2⟩ := find_some.1 hfind
      right
      refine ⟨cur.take i, cur.drop (i + 1), h1, h2, (found ⟨cur, full, [], ln, .ok⟩ scratch i).2, [], ?_⟩
      simp only [found]
      refine ⟨Prod.ext ?_ rfl, by simp, by simp, ?_, by simp, by simp⟩
      · simp only [Option.some.injEq]
        cases hti : cur.take i with
        | nil =>
          have hh : cur.head? = some 10 := by rw [h1, hti]; rfl
          have : ¬ (scratch.getD []).getLast? = some 13 := fun h => hs ⟨h, hh⟩
          simp [chop, noCr, this]
        | cons x xs =>
          have hl : (scratch.getD [] ++ x :: xs).getLast? = (x :: xs).getLast? := by
            rw [List.getLast?_append]; cases h : (x :: xs).getLast? with
            | none => simp at h
            | some y => rfl
          simp only [chop, noCr, hl]
          split
          · rw [List.dropLast_append_of_ne_nil (by simp)]
          · rfl
      · refine ⟨trivial, by simp, .inr (.inl rfl), by simp⟩
  | cons c cs ih =>
    intro scratch cur full ⟨hf, hs0, hc, hs⟩ hl
    have hcne : c ≠ [] := by cases cs <;> exact hf.1
    have hcl : c.length ≤ page - 1 := by cases cs <;> first | exact hf.2 | exact hf.2.1
    have hfcs : Fits page cs := by cases cs with
      | nil => trivial
      | cons d r => exact hf.2.2.2.2
    have hnext : cs = [] ∨ (((c.length == page - 1) = true ∨ c.getLast? = some 10) ∧
        ¬ (c.getLast? = some 13 ∧ (cs.headD []).head? = some 10)) := by
      cases cs with
      | nil => exact .inl rfl
      | cons d r => exact .inr ⟨by simpa using hf.2.2.1, hf.2.2.2.1⟩
    simp only [List.map_cons, next, scan]
    cases hfind : find 10 cur with
    | some i =>
      obtain ⟨h1, h2⟩ := find_some.1 hfind
      right
      refine ⟨cur.take i, cur.drop (i + 1) ++ (c :: cs).flatten, by rw [← List.cons_append, ← List.append_assoc, ← h1], h2,
        (found ⟨cur, full, .data c :: cs.map .data, ln, .ok⟩ scratch i).2, c :: cs, ?_⟩
      simp only [found]
      refine ⟨Prod.ext ?_ rfl, by simp, by simp, ?_, by simp, by simp⟩
      · simp only [Option.some.injEq]
        cases hti : cur.take i with
        | nil =>
          have hh : (cur ++ (c :: cs).flatten).head? = some 10 := by rw [h1, hti]; rfl
          have : ¬ (scratch.getD []).getLast? = some 13 := fun h => hs ⟨h, hh⟩
          simp [chop, noCr, this]
        | cons x xs =>
          have hl : (scratch.getD [] ++ x :: xs).getLast? = (x :: xs).getLast? := by
            rw [List.getLast?_append]; cases h : (x :: xs).getLast? with
            | none => simp at h
            | some y => rfl
          simp only [chop, noCr, hl]
          split
          · rw [List.dropLast_append_of_ne_nil (by simp)]
          · rfl
      · refine ⟨hf, by simp, ?_, by simp⟩
        by_cases hd : cur.drop (i + 1) = []
        · exact .inl hd
        · have hgl : (cur.drop (i + 1)).getLast? = cur.getLast? := by
            conv => rhs; rw [h1]
            rw [List.getLast?_append, List.getLast?_cons]
            cases h : (cur.drop (i + 1)).getLast? with
            | none => exact absurd (List.getLast?_eq_none_iff.1 h) hd
            | some y => rfl
          rcases hc with h | h | h
          · rw [h] at hd; simp at hd
          · cases h
          · exact .inr (.inr (by rw [hgl]; exact h))
    | none =>
      have hn := find_none.1 hfind
      have hread : ∃ s', (if cur ≠ [] then
            if cur.length + (scratch.getD []).length ≥ limit then Scan.tooLong
            else if (!full) = true then .eof (scratch.getD [] ++ cur)
            else .read (some (scratch.getD [] ++ cur))
          else .read scratch) = .read s' ∧ s'.getD [] = scratch.getD [] ++ cur ∧ s' ≠ some [] := by
        by_cases hcur : cur = []
        · subst hcur; exact ⟨scratch, by simp, by simp, hs0⟩
        · have hlim : ¬ cur.length + (scratch.getD []).length ≥ limit := by simp at hl; omega
          have hfull : full = true := by
            rcases hc with h | h | h
            · exact absurd h hcur
            · cases h
            · rcases h.1 with h | h
              · exact h
              · exact absurd (List.mem_of_getLast? h) hn
          exact ⟨some (scratch.getD [] ++ cur), by simp [hcur, hlim, hfull], by simp, by simp [hcur]⟩
      obtain ⟨s', hs', hs'd, hs'n⟩ := hread
      have hok : Okay page s' c (c.length == page - 1) cs := by
        refine ⟨hfcs, hs'n, ?_, ?_⟩
        · rcases hnext with h | h
          · exact .inr (.inl h)
          · exact .inr (.inr h)
        · rw [hs'd]
          have hch : (c ++ cs.flatten).head? = c.head? := by cases c with
            | nil => exact absurd rfl hcne
            | cons x xs => rfl
          rw [hch]
          by_cases hcur : cur = []
          · subst hcur
            have : ([] ++ (c :: cs).flatten).head? = c.head? := by cases c with
              | nil => exact absurd rfl hcne
              | cons x xs => rfl
            rw [this] at hs
            simpa using hs
          · rcases hc with h | h | h
            · exact absurd h hcur
            · cases h
            · have hgl : (scratch.getD [] ++ cur).getLast? = cur.getLast? := by
                rw [List.getLast?_append]
                cases h : cur.getLast? with
                | none => exact absurd (List.getLast?_eq_none_iff.1 h) hcur
                | some y => rfl
              rw [hgl]; exact h.2
      have hlen : c.length ≠ 0 := by intro h; exact hcne (List.length_eq_zero_iff.1 h)
      have := ih s' c (c.length == page - 1) hok (by rw [hs'd]; simpa [List.append_assoc] using hl)
      simp only [hs', hlen, if_false]
      rw [hs'd] at this
      rcases this with ⟨h1, r', h2, h3⟩ | ⟨a, b, h1, h2, r', cs', h3, h4⟩
      · left
        refine ⟨by simp only [List.flatten_cons, List.mem_append] at h1 ⊢; intro h; rcases h with h | h; exact hn h; exact h1 h, r', ?_, h3.1, h3.2.1, h3.2.2.1, ?_⟩
        · rw [h2]; simp only [List.flatten_cons, List.append_assoc]
        · rw [h3.2.2.2]; simp only [List.flatten_cons, List.append_assoc]
      · right
        refine ⟨cur ++ a, b, ?_, ?_, r', cs', ?_, h4⟩
        · rw [List.flatten_cons, h1]; simp
        · simp only [List.mem_append, not_or]; exact ⟨hn, h2⟩
        · rw [h3, List.append_assoc]

theorem yields_spec (page limit : Nat) (hp : 2 ≤ page) :
    ∀ (n : Nat) (r : LR) (cs : List Str), r.src = cs.map .data → r.status = .ok → Okay page none r.cur r.full cs →
      (r.cur ++ cs.flatten).length ≤ n → (r.cur ++ cs.flatten).length < limit →
      ∃ r', Yields page limit r (lines (r.cur ++ cs.flatten)) r' ∧ r'.status = .ok ∧
        r'.lineNum = r.lineNum + (lines (r.cur ++ cs.flatten)).length := by
  intro n
  induction n with
  | zero =>
    intro r cs hsrc hst hok hn hl
    have hnil : r.cur ++ cs.flatten = [] := List.length_eq_zero_iff.1 (by omega)
    rcases next_spec page limit r.lineNum hp cs none r.cur r.full hok (by simpa using hl) with ⟨h1, r', h2, h3, h4, h5, h6⟩ | ⟨a, b, h1, _⟩
    · simp only [Option.getD_none, List.nil_append, hnil, if_true] at h2 h6
      rw [hnil]
      refine ⟨r', .done ?_, h5, by simpa [lines, split, linesOf] using h6⟩
      rw [LR.next, hsrc, hst, h2]
    · rw [hnil] at h1; simp at h1
  | succ n ih =>
    intro r cs hsrc hst hok hn hl
    rcases next_spec page limit r.lineNum hp cs none r.cur r.full hok (by simpa using hl) with ⟨h1, r', h2, h3, h4, h5, h6⟩ |
      ⟨a, b, h1, h2, r', cs', h3, h4, h5, h6, h7, h8⟩
    · simp only [Option.getD_none, List.nil_append] at h2 h6
      rw [lines_none h1]
      by_cases hnil : r.cur ++ cs.flatten = []
      · simp only [hnil, if_true] at h2 h6 ⊢
        exact ⟨r', .done (by rw [LR.next, hsrc, hst, h2]), h5, h6⟩
      · simp only [hnil, if_false] at h2 h6 ⊢
        obtain ⟨r'', hy⟩ : ∃ r'', r'' = (r'.next page limit).2 := ⟨_, rfl⟩
        have hend : r'.next page limit = (none, r'') ∧ r''.status = .ok ∧ r''.lineNum = r'.lineNum := by
          rw [hy, LR.next, h3, h4, h5]
          simp [next, scan, find, atEnd]
        refine ⟨r'', .more (by rw [LR.next, hsrc, hst, h2]) (.done hend.1), hend.2.1, ?_⟩
        rw [hend.2.2, h6]; rfl
    · rw [h1, lines_first h2]
      have hlen : (r.cur ++ cs.flatten).length = a.length + 1 + b.length := by rw [h1]; simp; omega
      obtain ⟨r'', hy, hst'', hln⟩ := ih r' cs' h4 h7 h6 (by rw [← h5]; omega) (by rw [← h5]; omega)
      rw [← h5] at hy hln
      refine ⟨r'', .more (by rw [LR.next, hsrc, hst, h3]; rfl) hy, hst'', ?_⟩
      rw [hln, h8]; simp; omega

/-- Reading until `Next` returns false gives exactly the lines of the stream, without an error, and `line_num` is their number, if the
source fills the page with every read but the last and no read ends inside a CR LF pair (reads ending with LF may be short). The
text is shorter than the line length limit. -/
theorem C18_lines_partial (page limit : Nat) (hp : 2 ≤ page) (chunks : List Str) (hf : Fits page chunks)
    (hl : chunks.flatten.length < limit) :
    ∃ r', Yields page limit (init (chunks.map .data)) (lines chunks.flatten) r' ∧ r'.status = .ok ∧
      r'.lineNum = (lines chunks.flatten).length := by
  obtain ⟨r', h⟩ := yields_spec page limit hp _ (init (chunks.map .data)) chunks rfl rfl
    ⟨hf, by simp, .inl rfl, by simp⟩ (Nat.le_refl _) (by simpa [init] using hl)
  exact ⟨r', by simpa [init] using h⟩

/-- The calls have only one outcome. -/
theorem C18_deterministic {page limit : Nat} {r r₁ r₂ : LR} {l₁ l₂ : List Str} (h₁ : Yields page limit r l₁ r₁)
    (h₂ : Yields page limit r l₂ r₂) : l₁ = l₂ ∧ r₁ = r₂ := by
  induction h₁ generalizing l₂ with
  | done h => cases h₂ with
    | done h' => rw [h] at h'; exact ⟨rfl, (Prod.mk.inj h').2⟩
    | more h' _ => rw [h] at h'; cases (Prod.mk.inj h').1
  | more h _ ih => cases h₂ with
    | done h' => rw [h] at h'; cases (Prod.mk.inj h').1
    | more h' hy =>
      rw [h] at h'
      obtain ⟨e1, e2⟩ := Prod.mk.inj h'
      cases e1; subst e2
      obtain ⟨e3, e4⟩ := ih hy
      exact ⟨by rw [e3], e4⟩

/-- A failing read ends the reading and is reported. -/
theorem C18_error (page limit : Nat) (r : LR) (e : Nat) (src : List Rd) (hsrc : r.src = .err e :: src) (hc : r.cur = []) :
    ∃ r', r.next page limit = (none, r') ∧ r'.status = .source e := by
  refine ⟨⟨[], r.full, src, r.lineNum, .source e⟩, ?_, rfl⟩
  rw [LR.next, hsrc, hc]
  simp [next, scan, find]

/-- Disagreement: a read shorter than the page that ends inside a line ends the line. -/
theorem C18_short_read_cuts_line :
    Yields 2048 (2 ^ 64 - 1) (init [.data (lit "ab"), .data (lit "c\n")]) [lit "ab", lit "c"] ⟨[], false, [], 2, .ok⟩ ∧
    lines (lit "abc\n") = [lit "abc"] := by
  refine ⟨.more (r' := ⟨[], false, [.data (lit "c\n")], 1, .ok⟩) ?_
    (.more (r' := ⟨[], false, [], 2, .ok⟩) ?_ (.done ?_)), ?_⟩ <;> decide +kernel

/-- Disagreement: a CR that ends one full page, before an LF that begins the next, is left in the line. -/
theorem C18_cut_crlf_keeps_cr :
    let p : Str := List.replicate 2046 97 ++ [13]
    Yields 2048 (2 ^ 64 - 1) (init [.data p, .data [10]]) [p] ⟨[], false, [], 1, .ok⟩ ∧
    lines (p ++ [10]) = [List.replicate 2046 97] := by
  refine ⟨.more (r' := ⟨[], false, [], 1, .ok⟩) ?_ (.done ?_), ?_⟩ <;> decide +kernel

/-- Disagreement: the line length limit is not applied to a line that lies within one page. -/
theorem C18_limit_not_applied :
    Yields 2048 4 (init [.data (lit "abcdefgh\n")]) [lit "abcdefgh"] ⟨[], false, [], 1, .ok⟩ := by
  refine .more (r' := ⟨[], false, [], 1, .ok⟩) ?_ (.done ?_) <;> decide +kernel

/-! A concrete case that meets the hypotheses: pages of 4 bytes, reads of 3. -/
example : Fits 4 [lit "a\nb", lit "c\r\n", lit "d\n", lit "ef"] ∧
    lines (lit "a\nbc\r\nd\nef") = [lit "a", lit "bc", lit "d", lit "ef"] := by
  refine ⟨?_, by decide +kernel⟩
  simp only [Fits]
  decide +kernel
example : lines (lit "x\r\n\ny") = [lit "x", [], lit "y"] := by decide +kernel

end Verif.Lines
