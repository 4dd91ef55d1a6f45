/-!
`std::string_view` and the few Abseil string helpers the modelled text parsers use. Characters are bytes.
-/
namespace Verif.Text

abbrev Byte := UInt8
abbrev Str := List Byte

/-- ASCII text as bytes, for readable literals. -/
def lit (s : String) : Str := s.toList.map (fun c => c.toNat.toUInt8)

/-- `string_view::find(c)`; `none` is `npos`. -/
def find (c : Byte) : Str → Option Nat
  | [] => none
  | d :: s => if d == c then some 0 else (find c s).map (· + 1)

/-- `string_view::rfind(c)` -/
def rfind (c : Byte) : Str → Option Nat
  | [] => none
  | d :: s => match rfind c s with
    | some i => some (i + 1)
    | none => if d == c then some 0 else none

/-- `string_view::find_first_of(set)` -/
def findFirstOf (p : Byte → Bool) : Str → Option Nat
  | [] => none
  | d :: s => if p d then some 0 else (findFirstOf p s).map (· + 1)

/-- `substr(0, pos)`, everything for `npos` -/
def upTo (s : Str) : Option Nat → Str
  | none => s
  | some p => s.take p

/-- `absl::ascii_isspace` -/
def isSpace (c : Byte) : Bool := c == 32 || (9 ≤ c && c ≤ 13)

/-- `absl::StripLeadingAsciiWhitespace` -/
def stripLeading (s : Str) : Str := s.dropWhile isSpace

/-- `absl::StripAsciiWhitespace` -/
def strip (s : Str) : Str := ((s.dropWhile isSpace).reverse.dropWhile isSpace).reverse

/-- `absl::StrSplit(s, c)`: always at least one piece -/
def split (c : Byte) : Str → List Str
  | [] => [[]]
  | d :: s => if d == c then [] :: split c s
    else match split c s with
      | [] => [[d]]
      | p :: ps => (d :: p) :: ps

/-- `absl::ConsumePrefix(&s, p)` -/
def consumePrefix (p s : Str) : Bool × Str :=
  if p.isPrefixOf s then (true, s.drop p.length) else (false, s)

/-! ### What these mean, stated without their definitions -/

theorem find_none {c : Byte} : ∀ {s : Str}, find c s = none ↔ c ∉ s := by
  intro s
  induction s with
  | nil => simp [find]
  | cons d s ih =>
    simp only [find, List.mem_cons, not_or]
    by_cases h : d = c
    · simp [h]
    · simp [h, ih, Ne.symm h]

theorem find_some {c : Byte} : ∀ {s : Str} {i : Nat}, find c s = some i ↔
    s = s.take i ++ c :: s.drop (i + 1) ∧ c ∉ s.take i := by
  intro s
  induction s with
  | nil => intro i; simp [find]
  | cons d s ih =>
    intro i
    simp only [find]
    by_cases h : d = c
    · subst h
      simp only [beq_self_eq_true, if_true, Option.some.injEq]
      constructor
      · rintro rfl; simp
      · intro ⟨_, h2⟩
        cases i with
        | zero => rfl
        | succ i => simp at h2
    · have hb : (d == c) = false := by simp [h]
      simp only [hb, Bool.false_eq_true, if_false, Option.map_eq_some_iff]
      constructor
      · rintro ⟨j, hj, rfl⟩
        have := ih.1 hj
        simp only [List.take_succ_cons, List.drop_succ_cons, List.cons_append, List.cons.injEq, true_and, List.mem_cons, not_or]
        exact ⟨this.1, Ne.symm h, this.2⟩
      · intro ⟨h1, h2⟩
        cases i with
        | zero => simp at h1; exact absurd h1 h
        | succ i =>
          simp only [List.take_succ_cons, List.drop_succ_cons, List.cons_append, List.cons.injEq, true_and, List.mem_cons,
            not_or] at h1 h2
          exact ⟨i, ih.2 ⟨h1, h2.2⟩, rfl⟩

theorem rfind_none {c : Byte} : ∀ {s : Str}, rfind c s = none ↔ c ∉ s := by
  intro s
  induction s with
  | nil => simp [rfind]
  | cons d s ih =>
    simp only [rfind, List.mem_cons, not_or]
    cases h : rfind c s with
    | some i => simp only [reduceCtorEq, false_iff]; intro ⟨_, h2⟩; have := ih.2 h2; rw [h] at this; cases this
    | none =>
      have := ih.1 h
      by_cases h : d = c
      · simp [h]
      · simp [h, this, Ne.symm h]

theorem rfind_some {c : Byte} : ∀ {s : Str} {i : Nat}, rfind c s = some i →
    s = s.take i ++ c :: s.drop (i + 1) ∧ c ∉ s.drop (i + 1) := by
  intro s
  induction s with
  | nil => intro i; simp [rfind]
  | cons d s ih =>
    intro i
    simp only [rfind]
    cases h : rfind c s with
    | some j =>
      simp only [Option.some.injEq]
      rintro rfl
      have := ih h
      simp only [List.take_succ_cons, List.drop_succ_cons, List.cons_append, List.cons.injEq, true_and]
      exact this
    | none =>
      have := rfind_none.1 h
      by_cases h : d = c
      · subst h; simp; rintro rfl; simpa using this
      · simp [h]

/-- Splitting and joining again gives the text; no piece has the separator. -/
theorem split_spec (c : Byte) (s : Str) : s = List.intercalate [c] (split c s) ∧ ∀ p ∈ split c s, c ∉ p := by
  induction s with
  | nil => simp [split, List.intercalate]
  | cons d s ih =>
    simp only [split]
    by_cases h : d = c
    · subst h
      have hne : split d s ≠ [] := by
        cases s with
        | nil => simp [split]
        | cons e s => simp only [split]; split <;> (try split) <;> simp
      simp only [beq_self_eq_true, if_true]
      constructor
      · cases hs : split d s with
        | nil => exact absurd hs hne
        | cons p ps => rw [hs] at ih; simpa [List.intercalate] using ih.1
      · intro p hp
        rcases List.mem_cons.1 hp with rfl | hp
        · simp
        · exact ih.2 p hp
    · have hb : (d == c) = false := by simp [h]
      simp only [hb, Bool.false_eq_true, if_false]
      cases hs : split c s with
      | nil =>
        rw [hs] at ih
        have h1 := ih.1
        simp [List.intercalate] at h1
        subst h1; simp [List.intercalate, Ne.symm h]
      | cons p ps =>
        rw [hs] at ih
        refine ⟨?_, ?_⟩
        · have h1 := ih.1
          cases ps with
          | nil => simp only [List.intercalate, List.intersperse_singleton, List.flatten_cons, List.flatten_nil, List.append_nil] at h1 ⊢; rw [h1]
          | cons q qs =>
            simp only [List.intercalate, List.intersperse_cons_cons, List.flatten_cons, List.cons_append] at h1 ⊢
            rw [← h1]
        · intro q hq
          rcases List.mem_cons.1 hq with rfl | hq
          · have := ih.2 p (by simp)
            simp [this, Ne.symm h]
          · exact ih.2 q (by simp [hq])

theorem split_ne_nil (c : Byte) (s : Str) : split c s ≠ [] := by
  cases s with
  | nil => simp [split]
  | cons e s => simp only [split]; split <;> (try split) <;> simp

theorem dropWhile_spec {α : Type} (p : α → Bool) (s : List α) :
    ∃ a, s = a ++ s.dropWhile p ∧ (∀ x ∈ a, p x = true) ∧ ∀ x, (s.dropWhile p).head? = some x → p x = false := by
  induction s with
  | nil => exact ⟨[], by simp⟩
  | cons d s ih =>
    by_cases h : p d = true
    · obtain ⟨a, h1, h2, h3⟩ := ih
      rw [List.dropWhile_cons_of_pos h]
      refine ⟨d :: a, by simpa using h1, ?_, h3⟩
      intro x hx
      rcases List.mem_cons.1 hx with rfl | hx
      · exact h
      · exact h2 x hx
    · rw [List.dropWhile_cons_of_neg h]
      exact ⟨[], by simp, by simp, by simp; simpa using h⟩

/-- `t` is `s` without surrounding white space: what was removed is white space only, and `t` neither begins nor ends with
white space. -/
def Stripped (s t : Str) : Prop :=
  (∃ a b, s = a ++ t ++ b ∧ (∀ x ∈ a, isSpace x = true) ∧ ∀ x ∈ b, isSpace x = true) ∧
  (∀ x, t.head? = some x → isSpace x = false) ∧ ∀ x, t.getLast? = some x → isSpace x = false

theorem strip_spec (s : Str) : Stripped s (strip s) := by
  obtain ⟨a, h1, h2, h3⟩ := dropWhile_spec isSpace s
  obtain ⟨b, h4, h5, h6⟩ := dropWhile_spec isSpace (s.dropWhile isSpace).reverse
  have h7 : s.dropWhile isSpace = strip s ++ b.reverse := by
    have := congrArg List.reverse h4
    simpa [strip] using this
  refine ⟨⟨a, b.reverse, by rw [List.append_assoc, ← h7]; exact h1, h2, by simpa using h5⟩, ?_, ?_⟩
  · intro x hx
    apply h3 x
    rw [h7]
    cases h : strip s with
    | nil => rw [h] at hx; simp at hx
    | cons y ys => rw [h] at hx; simpa using hx
  · intro x hx
    apply h6 x
    rw [strip, List.getLast?_reverse] at hx
    exact hx

theorem stripped_strip {s : Str} (hh : ∀ x, s.head? = some x → isSpace x = false) (hl : ∀ x, s.getLast? = some x → isSpace x = false) :
    strip s = s := by
  have h1 : s.dropWhile isSpace = s := by
    cases s with
    | nil => rfl
    | cons d s => exact List.dropWhile_cons_of_neg (by simp [hh d rfl])
  have h2 : s.reverse.dropWhile isSpace = s.reverse := by
    cases h : s.reverse with
    | nil => rfl
    | cons d r =>
      apply List.dropWhile_cons_of_neg
      have : s.getLast? = some d := by rw [← List.head?_reverse, h]; rfl
      simp [hl d this]
  rw [strip, h1, h2, List.reverse_reverse]

/-- Stripping has one result. -/
theorem stripped_unique {s t : Str} (h : Stripped s t) : t = strip s := by
  obtain ⟨⟨a, b, h1, ha, hb⟩, hh, hl⟩ := h
  have hdw : ∀ (p r : Str), (∀ x ∈ p, isSpace x = true) → (p ++ r).dropWhile isSpace = r.dropWhile isSpace := by
    intro p r hp
    induction p with
    | nil => rfl
    | cons x p ih =>
      rw [List.cons_append, List.dropWhile_cons_of_pos (hp x (by simp)), ih (fun y hy => hp y (by simp [hy]))]
  have hall : ∀ p : Str, (∀ x ∈ p, isSpace x = true) → p.dropWhile isSpace = [] := by
    intro p hp
    have := hdw p [] hp
    simpa using this
  subst h1
  rw [strip, List.append_assoc, hdw _ _ ha]
  cases t with
  | nil => simp [hall b hb]
  | cons y t =>
    have : ((y :: t) ++ b).dropWhile isSpace = (y :: t) ++ b := List.dropWhile_cons_of_neg (by simp [hh y rfl])
    rw [this, List.reverse_append, hdw _ _ (by simpa using hb)]
    cases h : (y :: t).reverse with
    | nil => simp at h
    | cons d r =>
      have hd : (y :: t).getLast? = some d := by rw [← List.head?_reverse, h]; rfl
      rw [List.dropWhile_cons_of_neg (by simp [hl d hd]), ← h, List.reverse_reverse]

end Verif.Text
