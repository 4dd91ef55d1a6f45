import Verif.ProgName.Spec
/-!
# C133: a program knows its file name, also after its file was replaced
-/
namespace Verif.ProgName
open Verif.Text (Str lit)

theorem suffix_length : suffix.length = 10 := by decide

theorem absName_of {r l : Str} (hr : readlink l = r) (h0 : 0 < r.length)
    (h : ¬ (10 < r.length ∧ r.drop (r.length - 10) = suffix)) : absName l = some r := by
  unfold absName
  dsimp only
  rw [hr, suffix_length, if_pos h0]
  by_cases h1 : 10 < r.length
  · rw [if_pos h1, if_neg (fun h2 => h ⟨h1, h2⟩)]
  · rw [if_neg h1]

/-- C133, for paths for which it holds (see `C133_cut_refuted` and `C133_suffix_refuted`): a program that
was started from `path` is told `path`, whether its file is still there or not. -/
theorem C133_name_partial (path : Str) (h0 : path ≠ []) (hlen : path.length ≤ 2038)
    (hs : ¬ ∃ d, path = d ++ lit " (deleted)") (deleted : Bool) :
    absName (link path deleted) = some path := by
  have hpos : 0 < path.length := List.length_pos_iff.mpr h0
  cases deleted with
  | false =>
    refine absName_of (r := path) ?_ hpos ?_
    · show path.take 2048 = path
      exact List.take_of_length_le (by omega)
    · rintro ⟨h1, h2⟩
      refine hs ⟨path.take (path.length - 10), ?_⟩
      have := List.take_append_drop (path.length - 10) path
      rw [h2] at this
      exact this.symm
  | true =>
    have hr : readlink (link path true) = path ++ suffix := by
      show (path ++ suffix).take 2048 = _
      refine List.take_of_length_le ?_
      rw [List.length_append, suffix_length]
      omega
    unfold absName
    dsimp only
    rw [hr, List.length_append, suffix_length, Nat.add_sub_cancel, if_pos (by omega), if_pos (by omega),
      List.drop_left, if_pos rfl, List.take_left]

theorem rfind_none {c : UInt8} {l : Str} : rfind c l = none ↔ c ∉ l := by
  induction l with
  | nil => simp [rfind]
  | cons a l ih =>
    unfold rfind
    cases h : rfind c l with
    | some i =>
      simp only [h, reduceCtorEq, false_iff, Classical.not_not] at ih ⊢
      exact List.mem_cons_of_mem _ ih
    | none =>
      have hn := ih.mp h
      by_cases ha : a = c
      · simp [ha]
      · simp only [if_neg ha, true_iff, List.mem_cons, not_or]
        exact ⟨fun e => ha e.symm, hn⟩

theorem rfind_some {c : UInt8} {l : Str} {i : Nat} (h : rfind c l = some i) :
    c ∉ l.drop (i + 1) ∧ l = l.take i ++ [c] ++ l.drop (i + 1) := by
  induction l generalizing i with
  | nil => cases h
  | cons a l ih =>
    unfold rfind at h
    cases hr : rfind c l with
    | some j =>
      rw [hr] at h
      cases h
      obtain ⟨h1, h2⟩ := ih hr
      refine ⟨h1, ?_⟩
      simp only [List.take_succ_cons, List.drop_succ_cons, List.cons_append]
      rw [← h2]
    | none =>
      rw [hr] at h
      by_cases ha : a = c
      · simp only [if_pos ha, Option.some.injEq] at h
        subst h
        subst ha
        exact ⟨by simpa using rfind_none.mp hr, rfl⟩
      · simp only [if_neg ha, reduceCtorEq] at h

theorem rfind_last {c : UInt8} (d n : Str) (h : c ∉ n) : rfind c (d ++ [c] ++ n) = some d.length := by
  induction d with
  | nil =>
    show rfind c (c :: n) = _
    unfold rfind
    rw [rfind_none.mpr h]
    simp
  | cons a d ih =>
    show rfind c (a :: (d ++ [c] ++ n)) = _
    unfold rfind
    rw [ih]
    rfl

/-- C133, the base name is the part of the absolute name after its last slash, for every name the
kernel gives. -/
theorem C133_base (l name b : Str) (ha : absName l = some name) (hb : baseName l = some b) :
    IsLast name b ∨ (47 ∉ name ∧ b = name) := by
  unfold baseName at hb
  rw [ha] at hb
  dsimp only at hb
  cases hr : rfind 47 name with
  | none =>
    rw [hr] at hb
    cases hb
    exact .inr ⟨rfind_none.mp hr, rfl⟩
  | some i =>
    rw [hr] at hb
    cases hb
    obtain ⟨h1, h2⟩ := rfind_some hr
    exact .inl ⟨h1, _, h2⟩

/-- C133, so a program started from a file `name` in some directory is told `name`. -/
theorem C133_base_name (dir name : Str) (hn : 47 ∉ name) (hlen : (dir ++ [47] ++ name).length ≤ 2038)
    (hs : ¬ ∃ d, dir ++ [47] ++ name = d ++ lit " (deleted)") (deleted : Bool) :
    baseName (link (dir ++ [47] ++ name) deleted) = some name := by
  have h := C133_name_partial _ (by simp) hlen hs deleted
  unfold baseName
  rw [h]
  dsimp only
  rw [rfind_last dir name hn]
  dsimp only
  have e : dir.length + 1 = (dir ++ [47]).length := by simp
  rw [e, List.drop_left]

/-- C133, the program is never stopped by the check on `readlink`: the kernel's answer is not empty. -/
theorem C133_total (path : Str) (h0 : path ≠ []) (deleted : Bool) :
    ∃ n b, absName (link path deleted) = some n ∧ baseName (link path deleted) = some b := by
  have h : ∃ n, absName (link path deleted) = some n := by
    have hpos : 0 < (readlink (link path deleted)).length := by
      have := List.length_pos_iff.mpr h0
      unfold readlink link
      rw [List.length_take]
      split
      · rw [List.length_append]; omega
      · omega
    unfold absName
    dsimp only
    rw [if_pos hpos]
    split
    · split
      · exact ⟨_, rfl⟩
      · exact ⟨_, rfl⟩
    · exact ⟨_, rfl⟩
  obtain ⟨n, hn⟩ := h
  unfold baseName
  rw [hn]
  dsimp only
  split
  · exact ⟨_, _, rfl, rfl⟩
  · exact ⟨_, _, rfl, rfl⟩

/-- The full property is false of the code: every path of more than 2048 characters is told cut, with no
error, and Linux allows paths of 4095 characters. -/
theorem C133_cut_refuted (path : Str) (h : 2048 < path.length) :
    absName (link path false) ≠ some path := by
  intro hc
  have hlen : ∀ n, absName (link path false) = some n → n.length ≤ 2048 := by
    intro n hn
    have hr : (readlink (link path false)).length ≤ 2048 := by
      unfold readlink
      rw [List.length_take]
      omega
    unfold absName at hn
    dsimp only at hn
    split at hn
    · split at hn
      · split at hn
        · cases hn
          rw [List.length_take]
          omega
        · cases hn; exact hr
      · cases hn; exact hr
    · cases hn
  have := hlen path hc
  omega

/-- The full property is false of the code: a file that is really called `x (deleted)` and is still there
is reported as `x`. -/
theorem C133_suffix_refuted (x : Str) (h0 : x ≠ []) (hl : x.length ≤ 2038) :
    absName (link (x ++ lit " (deleted)") false) = some x := by
  have hpos : 0 < x.length := List.length_pos_iff.mpr h0
  have hr : readlink (link (x ++ lit " (deleted)") false) = x ++ suffix := by
    show (x ++ suffix).take 2048 = _
    refine List.take_of_length_le ?_
    rw [List.length_append, suffix_length]
    omega
  unfold absName
  dsimp only
  rw [hr, List.length_append, suffix_length, Nat.add_sub_cancel, if_pos (by omega), if_pos (by omega),
    List.drop_left, if_pos rfl, List.take_left]

/-- A concrete program, before and after its file was replaced. -/
theorem C133_case :
    absName (link (lit "/usr/bin/server") false) = some (lit "/usr/bin/server") ∧
    absName (link (lit "/usr/bin/server") true) = some (lit "/usr/bin/server") ∧
    baseName (link (lit "/usr/bin/server") true) = some (lit "server") := by
  decide +kernel

/-- It meets the hypotheses of `C133_base_name`. -/
theorem C133_case_hyp : (47 ∉ lit "server") ∧
    ¬ ∃ d, lit "/usr/bin" ++ [47] ++ lit "server" = d ++ lit " (deleted)" := by
  refine ⟨by decide, ?_⟩
  rintro ⟨d, h⟩
  have := congrArg List.getLast? h
  rw [List.getLast?_append, List.getLast?_append (l := d),
    show List.getLast? (lit "server") = some 114 by decide,
    show List.getLast? (lit " (deleted)") = some 41 by decide] at this
  simp at this

end Verif.ProgName
