import Verif.HtmlTable.Spec
/-!
# C138: a table shows its cells
-/
namespace Verif.HtmlTable
open Verif.Text

/-- The cells after the first. -/
def more (t : Str) (l : List Str) : Str := (l.map (fun c => lit "\n" ++ tag t c)).flatten

theorem join_cons (t c : Str) (l : List Str) : join t (c :: l) = tag t c ++ more t l := by
  induction l generalizing c with
  | nil => simp [join, more]
  | cons d l ih =>
    rw [join, ih d]
    simp [more]

theorem lt_eq : lit "<" = [60] := by decide +kernel
theorem gt_eq : lit ">" = [62] := by decide +kernel
theorem nl_eq : lit "\n" = [10] := by decide +kernel
theorem close_eq : lit "</" = [60, 47] := by decide +kernel

theorem tag_eq (t c x : Str) : tag t c ++ x = 60 :: (t ++ 62 :: (c ++ 60 :: (47 :: (t ++ 62 :: x)))) := by
  simp [tag, lt_eq, gt_eq, close_eq]

theorem until_lt (c d : Str) (hc : (60 : Byte) ∉ c) (hd : (60 : Byte) ∉ d) (x y : Str) (h : c ++ 60 :: x = d ++ 60 :: y) :
    c = d ∧ x = y := by
  induction c generalizing d with
  | nil =>
    cases d with
    | nil => exact ⟨rfl, (List.cons.inj h).2⟩
    | cons b d => exact absurd ((List.cons.inj h).1 ▸ List.mem_cons_self) hd
  | cons a c ih =>
    cases d with
    | nil => exact absurd ((List.cons.inj h).1.symm ▸ List.mem_cons_self) hc
    | cons b d =>
      obtain ⟨h1, h2⟩ := List.cons.inj h
      obtain ⟨h3, h4⟩ := ih d (fun m => hc (List.mem_cons_of_mem _ m)) (fun m => hd (List.mem_cons_of_mem _ m)) h2
      exact ⟨by rw [h1, h3], h4⟩

theorem tag_inj (t c d x y : Str) (hc : (60 : Byte) ∉ c) (hd : (60 : Byte) ∉ d) (h : tag t c ++ x = tag t d ++ y) :
    c = d ∧ x = y := by
  rw [tag_eq, tag_eq] at h
  have h1 := List.append_cancel_left (List.cons.inj h).2
  obtain ⟨h2, h3⟩ := until_lt c d hc hd _ _ (List.cons.inj h1).2
  have h4 := List.append_cancel_left (List.cons.inj h3).2
  exact ⟨h2, (List.cons.inj h4).2⟩

theorem more_cons (t c : Str) (l : List Str) (x : Str) : more t (c :: l) ++ x = 10 :: (tag t c ++ (more t l ++ x)) := by
  simp [more, nl_eq]

theorem more_inj (t e : Str) (he : ∀ x y, 10 :: 60 :: (t ++ 62 :: x) ≠ e ++ y) (l : List Str) : ∀ l' x y,
    NoMarkup l → NoMarkup l' → more t l ++ (e ++ x) = more t l' ++ (e ++ y) → l = l' ∧ x = y := by
  induction l with
  | nil =>
    intro l' x y _ _ h
    cases l' with
    | nil => exact ⟨rfl, List.append_cancel_left h⟩
    | cons d l' =>
      rw [more_cons, tag_eq] at h
      exact absurd h.symm (he _ _)
  | cons c l ih =>
    intro l' x y hl hl' h
    cases l' with
    | nil =>
      rw [more_cons, tag_eq] at h
      exact absurd h (he _ _)
    | cons d l' =>
      rw [more_cons, more_cons] at h
      obtain ⟨h1, h2⟩ := tag_inj t c d _ _ (hl c List.mem_cons_self) (hl' d List.mem_cons_self) (List.cons.inj h).2
      obtain ⟨h3, h4⟩ := ih l' x y (fun c m => hl c (List.mem_cons_of_mem _ m))
        (fun c m => hl' c (List.mem_cons_of_mem _ m)) h2
      exact ⟨by rw [h1, h3], h4⟩

theorem join_inj (t e : Str) (he : ∀ x y, 10 :: 60 :: (t ++ 62 :: x) ≠ e ++ y) (he2 : ∀ x y, 60 :: (t ++ 62 :: x) ≠ e ++ y)
    (l l' : List Str) (x y : Str) (hl : NoMarkup l) (hl' : NoMarkup l')
    (h : join t l ++ (e ++ x) = join t l' ++ (e ++ y)) : l = l' ∧ x = y := by
  cases l with
  | nil =>
    cases l' with
    | nil => exact ⟨rfl, List.append_cancel_left h⟩
    | cons d l' =>
      rw [join_cons, List.append_assoc, tag_eq] at h
      exact absurd h.symm (he2 _ _)
  | cons c l =>
    cases l' with
    | nil =>
      rw [join_cons, List.append_assoc, tag_eq] at h
      exact absurd h (he2 _ _)
    | cons d l' =>
      rw [join_cons, join_cons, List.append_assoc, List.append_assoc] at h
      obtain ⟨h1, h2⟩ := tag_inj t c d _ _ (hl c List.mem_cons_self) (hl' d List.mem_cons_self) h
      obtain ⟨h3, h4⟩ := more_inj t e he l l' x y (fun c m => hl c (List.mem_cons_of_mem _ m))
        (fun c m => hl' c (List.mem_cons_of_mem _ m)) h2
      exact ⟨by rw [h1, h3], h4⟩

theorem td_eq : lit "td" = [116, 100] := by decide +kernel
theorem th_eq : lit "th" = [116, 104] := by decide +kernel
theorem tr_eq : lit "</tr>\n" = [60, 47, 116, 114, 62, 10] := by decide +kernel
theorem tr2_eq : lit "</tr>" = [60, 47, 116, 114, 62] := by decide +kernel

/-- C138: when no cell has a `<` in it, the text of a row, whatever follows it, tells the cells: how many
there are, in which order, and what is in each. -/
theorem C138_row_partial (l l' : List Str) (x y : Str) (hl : NoMarkup l) (hl' : NoMarkup l')
    (h : row l ++ x = row l' ++ y) : l = l' ∧ x = y := by
  unfold row at h
  simp only [List.append_assoc] at h
  refine join_inj (lit "td") (lit "</tr>\n") ?_ ?_ l l' x y hl hl' (List.append_cancel_left h)
  · intro x y e
    rw [tr_eq] at e
    simp at e
  · intro x y e
    rw [tr_eq, td_eq] at e
    simp at e

theorem rows_inj (e e' : Str) (he : ∀ l x y, row l ++ x ≠ lit "</tbody></table>\n" ++ y) (rs : List (List Str)) : ∀ rs',
    (∀ r ∈ rs, NoMarkup r) → (∀ r ∈ rs', NoMarkup r) →
    (rs.map row).flatten ++ (lit "</tbody></table>\n" ++ e) = (rs'.map row).flatten ++ (lit "</tbody></table>\n" ++ e') →
    rs = rs' := by
  induction rs with
  | nil =>
    intro rs' _ _ h
    cases rs' with
    | nil => rfl
    | cons r rs' =>
      simp only [List.map_cons, List.flatten_cons, List.append_assoc, List.map_nil, List.flatten_nil, List.nil_append] at h
      exact absurd h.symm (he r _ _)
  | cons r rs ih =>
    intro rs' h1 h2 h
    cases rs' with
    | nil =>
      simp only [List.map_cons, List.flatten_cons, List.append_assoc, List.map_nil, List.flatten_nil, List.nil_append] at h
      exact absurd h (he r _ _)
    | cons r' rs' =>
      simp only [List.map_cons, List.flatten_cons, List.append_assoc] at h
      obtain ⟨a, b⟩ := C138_row_partial r r' _ _ (h1 r List.mem_cons_self) (h2 r' List.mem_cons_self) h
      rw [a, ih rs' (fun r m => h1 r (List.mem_cons_of_mem _ m)) (fun r m => h2 r (List.mem_cons_of_mem _ m)) b]

/-- C138: when no cell has a `<` in it, the text of a table tells the header and every row. -/
theorem C138_table_partial (pager : Str) (hd hd' : List Str) (rs rs' : List (List Str)) (h1 : NoMarkup hd) (h2 : NoMarkup hd')
    (h3 : ∀ r ∈ rs, NoMarkup r) (h4 : ∀ r ∈ rs', NoMarkup r) (h : table pager hd rs = table pager hd' rs') :
    hd = hd' ∧ rs = rs' := by
  unfold table startTable colNames endTable at h
  simp only [List.append_assoc] at h
  have e1 := List.append_cancel_left (List.append_cancel_left (List.append_cancel_left h))
  have key := join_inj (lit "th") (lit "\n" ++ lit "</tr>") (by
      intro x y e
      rw [nl_eq, tr2_eq, th_eq] at e
      simp at e) (by
      intro x y e
      rw [nl_eq] at e
      simp at e) hd hd' _ _ h1 h2 (by simpa only [List.append_assoc] using e1)
  obtain ⟨a, b⟩ := key
  subst a
  refine ⟨rfl, ?_⟩
  have b1 := List.append_cancel_left (List.append_cancel_left (List.append_cancel_left (List.append_cancel_left
    (List.append_cancel_left (List.append_cancel_left b)))))
  refine rows_inj pager pager ?_ rs rs' h3 h4 b1
  intro l x y e
  have e1 : lit "<tr>\n" = [60, 116, 114, 62, 10] := by decide +kernel
  have e2 : lit "</tbody></table>\n" = [60, 47] ++ lit "tbody></table>\n" := by decide +kernel
  unfold row at e
  rw [e1, e2] at e
  simp at e

/-- C138: the header is written twice, above and below the table, and each name in it stands between its
tags. -/
theorem C138_cell (l : List Str) (c : Str) (h : c ∈ l) :
    (∃ a b, row l = a ++ (lit "<td>" ++ c ++ lit "</td>") ++ b) ∧
    (∃ a m b, startTable l = a ++ (lit "<th>" ++ c ++ lit "</th>") ++ m ++ (lit "<th>" ++ c ++ lit "</th>") ++ b) := by
  have key : ∀ t, ∃ a b, join t l = a ++ tag t c ++ b := by
    intro t
    obtain ⟨p, q, rfl⟩ := List.append_of_mem h
    cases p with
    | nil => exact ⟨[], more t q, by rw [List.nil_append, join_cons]; rfl⟩
    | cons d p =>
      refine ⟨tag t d ++ more t p ++ lit "\n", more t q, ?_⟩
      rw [List.cons_append, join_cons]
      simp [more]
  have k1 : tag (lit "td") c = lit "<td>" ++ c ++ lit "</td>" := by
    have a1 : lit "<td>" = lit "<" ++ lit "td" ++ lit ">" := by decide +kernel
    have a2 : lit "</td>" = lit "</" ++ lit "td" ++ lit ">" := by decide +kernel
    rw [a1, a2]
    simp [tag]
  have k2 : tag (lit "th") c = lit "<th>" ++ c ++ lit "</th>" := by
    have a1 : lit "<th>" = lit "<" ++ lit "th" ++ lit ">" := by decide +kernel
    have a2 : lit "</th>" = lit "</" ++ lit "th" ++ lit ">" := by decide +kernel
    rw [a1, a2]
    simp [tag]
  constructor
  · obtain ⟨a, b, e⟩ := key (lit "td")
    refine ⟨lit "<tr>\n" ++ a, b ++ lit "</tr>\n", ?_⟩
    rw [row, e, k1]
    simp only [List.append_assoc]
  · obtain ⟨a, b, e⟩ := key (lit "th")
    unfold startTable colNames
    rw [e, k2]
    generalize lit "<th>" ++ c ++ lit "</th>" = w
    generalize lit "\n  <table class=\"tablesorter\" id=\"tablesorter\">\n    <thead class=\"thead-dark\"> <!-- add class=\"thead-light\" for a light header -->" = p
    refine ⟨p ++ (lit "<tr>" ++ (lit "\n" ++ a)),
      b ++ lit "\n" ++ lit "</tr>" ++ lit "</thead><tfoot>\n" ++ lit "<tr>" ++ lit "\n" ++ a,
      b ++ lit "\n" ++ lit "</tr> </tfoot>\n    <tbody>", ?_⟩
    simp only [List.append_assoc]

/-- The full property is false of the code: cells are not escaped. A cell can contain the end of its own
cell and the start of another, and the table is the same as one with two cells. -/
theorem C138_markup_refuted (x y : Str) (l : List Str) :
    row ((x ++ lit "</td>\n<td>" ++ y) :: l) = row (x :: y :: l) := by
  have e : lit "</td>\n<td>" = lit "</" ++ lit "td" ++ lit ">" ++ lit "\n" ++ lit "<" ++ lit "td" ++ lit ">" := by
    decide +kernel
  unfold row
  rw [join_cons, join_cons, e]
  simp [more, tag]

/-- Concrete rows. -/
theorem C138_case : NoMarkup [lit "id", lit "a > b"] ∧
    row [lit "id", lit "a > b"] = lit "<tr>\n<td>id</td>\n<td>a > b</td></tr>\n" ∧ row [] = lit "<tr>\n</tr>\n" := by
  refine ⟨by unfold NoMarkup; decide +kernel, by decide +kernel, by decide +kernel⟩

end Verif.HtmlTable
