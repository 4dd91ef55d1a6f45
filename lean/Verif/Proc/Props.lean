import Verif.Proc.Model
import Verif.Proc.Spec
import Verif.IoBuf.Lemmas
import Verif.Text.Props
import Verif.Lines.Props
/-!
C41: which lines `ReadProcFile` reports.
-/
namespace Verif.Proc
open Verif.Text Verif.IoBuf Spec

theorem known_map (s : Str) : known (s.map some) = some s := by
  induction s with
  | nil => rfl
  | cons c s ih => simp [known, ih]

/-- The lines reported: those before the first one without the separator. -/
def parse (sep : Byte) (hdr : Bool) (text : Str) : List (Str × Str) :=
  (((complete text).drop (if hdr then 0 else 1)).takeWhile (sep ∈ ·)).filterMap (keyValue sep)

theorem complete_none {s : Str} (h : 10 ∉ s) : complete s = [] := by
  simp [complete, Lines.split_none h]

theorem complete_first {a b : Str} (h : 10 ∉ a) : complete (a ++ 10 :: b) = a :: complete b := by
  rw [complete, Lines.split_first h]
  have := split_ne_nil 10 b
  cases hs : split 10 b with
  | nil => exact absurd hs this
  | cons p ps => simp [complete, hs]

theorem parse_none {sep : Byte} {hdr : Bool} {s : Str} (h : 10 ∉ s) : parse sep hdr s = [] := by
  simp [parse, complete_none h]

theorem consume_size {b b' : Buf} {n : Nat} (h : b.consumeInput n = some b') : b'.size ≤ b.size := by
  unfold Buf.consumeInput at h
  split at h
  · cases h; simp
  · simp only at h
    split at h
    · unfold Buf.compact at h
      split at h
      · split at h
        · split at h
          · cases h
          · split at h
            · cases h
            · split at h
              · cases h
              · cases h; simp
        · cases h
      · cases h; simp
    · cases h; simp

theorem fill_size {b b' : Buf} {bs : List UInt8} (h : b.fillAndCommit bs = some b') : b'.size ≤ b.size + bs.length := by
  unfold Buf.fillAndCommit at h
  split at h
  · split at h
    · cases h; simp
    · cases h
  · split at h
    · cases h
    · cases h; simp

theorem ensure_size {b b' : Buf} {q : Str} {n : Nat} (hr : Rep b q) (hn : b.size + n ≤ 2 ^ 63) (h : b.ensureCapacity n = some b') :
    b'.size ≤ b.size := by
  unfold Buf.ensureCapacity at h
  split at h
  · obtain ⟨b1, h1, _, _, _, h3, h4⟩ := reserve_rep hr hn
    rw [h1] at h; cases h
    by_cases hc : b.size + n < b.cap
    · rw [h3 hc]; exact Nat.le_refl _
    · have := (h4 (by omega)).2.2.1
      have := hr.hl
      omega
  · cases h; simp

theorem kv_found {sep : Byte} {line : Str} {pos : Nat} (h : find sep line = some pos) :
    keyValue sep line = some (line.take pos, stripLeading (line.drop (pos + 1))) := by
  have h1 := find_take_drop (c := sep) (s := line)
  rw [h] at h1
  have hm : sep ∈ line := by rw [(find_some.1 h).1]; simp
  simp only [keyValue, hm, if_true, h1.1, h1.2]

theorem inner_spec (sep : Byte) (tot : Nat) (htot : 3 * tot ≤ 2 ^ 63) :
    ∀ (fuel : Nat) (hdr : Bool) (b : Buf) (q : Str), Rep b q → b.size ≤ tot → 1 ≤ b.cap → q.length < fuel →
      ∃ hdr' b' out q', inner sep fuel hdr b = some (hdr', b', out) ∧ Rep b' q' ∧ b'.size ≤ tot ∧ 1 ≤ b'.cap ∧
        (∀ fut, parse sep hdr (q ++ fut) = out ++ parse sep hdr' (q' ++ fut)) ∧
        ((10 ∉ q' ∧ 0 < b'.appendLen) ∨ ∀ fut, parse sep hdr' (q' ++ fut) = []) := by
  intro fuel
  induction fuel with
  | zero => intro hdr b q _ _ _ h; omega
  | succ fuel ih =>
    intro hdr b q hr hsz hcap hfuel
    have hin : b.input.bind known = some q := by rw [input_of_rep hr]; exact known_map q
    simp only [inner, hin]
    cases hf : find 10 q with
    | none =>
      have hn := find_none.1 hf
      by_cases ha : b.appendLen = 0
      · have hsc : b.size = b.cap := by have := hr.h2; unfold Buf.appendLen at ha; omega
        obtain ⟨b', hb', hr', h1, _, _⟩ := ensure_rep (n := b.cap * 2) hr (by omega)
        have h2 := ensure_size hr (by omega) hb'
        have hc' : 1 ≤ b'.cap := by unfold Buf.appendLen at h1; omega
        refine ⟨hdr, b', [], q, by simp [ha, hb'], hr', by omega, hc', by simp, .inl ⟨hn, by omega⟩⟩
      · exact ⟨hdr, b, [], q, by simp [ha], hr, hsz, hcap, by simp, .inl ⟨hn, by omega⟩⟩
    | some eol =>
      obtain ⟨h1, h2⟩ := find_some.1 hf
      have hlen : (q.take eol).length + 1 = eol + 1 := by
        have := congrArg List.length h1
        simp at this ⊢; omega
      have hlt : eol < q.length := by
        have := congrArg List.length h1
        simp at this; omega
      obtain ⟨b', hb', hr', _, hcap'⟩ := consume_rep hr (eol + 1)
      have hsz' := consume_size hb'
      have hlq : (q.drop (eol + 1)).length < fuel := by simp; omega
      simp only [hlen]
      cases hdr with
      | false =>
        obtain ⟨hdr', b'', out, q', h3, h4, h5, h6, h7, h8⟩ := ih true b' _ hr' (by omega) (by omega) hlq
        refine ⟨hdr', b'', out, q', by simp [hb', h3], h4, h5, h6, ?_, h8⟩
        intro fut
        rw [← h7]
        conv => lhs; rw [h1]
        simp only [parse, List.append_assoc, List.cons_append, complete_first h2]
        simp
      | true =>
        cases hs : find sep (q.take eol) with
        | none =>
          have hns := find_none.1 hs
          have : ∀ fut, parse sep true (q ++ fut) = [] := by
            intro fut
            rw [h1]
            simp only [parse, List.append_assoc, List.cons_append, complete_first h2]
            simp [List.takeWhile, hns]
          exact ⟨true, b, [], q, by simp, hr, hsz, hcap, by simp, .inr this⟩
        | some pos =>
          have hms : sep ∈ q.take eol := by rw [(find_some.1 hs).1]; simp
          obtain ⟨hdr', b'', out, q', h3, h4, h5, h6, h7, h8⟩ := ih true b' _ hr' (by omega) (by omega) hlq
          refine ⟨hdr', b'', ((q.take eol).take pos, stripLeading ((q.take eol).drop (pos + 1))) :: out, q',
            by simp only [Bool.not_true, Bool.false_eq_true, if_false, hb', h3, Option.map_some], h4, h5, h6, ?_, h8⟩
          intro fut
          rw [List.cons_append, ← h7]
          conv => lhs; rw [h1]
          simp only [parse, List.append_assoc, List.cons_append, complete_first h2, if_true, List.drop_zero]
          rw [List.takeWhile_cons_of_pos (by simpa using hms), List.filterMap_cons, kv_found hs]

theorem outer_spec (sep : Byte) (sched : Nat → Option Nat) (tot : Nat) (htot : 3 * tot ≤ 2 ^ 63) :
    ∀ (n i : Nat) (rest : Str) (b : Buf) (q : Str) (hdr : Bool), rest.length ≤ n → Rep b q → b.size + rest.length ≤ tot → 1 ≤ b.cap →
      ((10 ∉ q ∧ 0 < b.appendLen) ∨ ∀ fut, parse sep hdr (q ++ fut) = []) →
      ∃ ok out, outer sep sched i rest b hdr = some (ok, out) ∧ out <+: parse sep hdr (q ++ rest) ∧
        (ok = true → out = parse sep hdr (q ++ rest)) ∧ ((∀ i, sched i ≠ none) → ok = true) := by
  intro n
  induction n with
  | zero =>
    intro i rest b q hdr hn hr hsz hcap hst
    have : rest = [] := List.length_eq_zero_iff.1 (by omega)
    subst this
    rw [outer]
    cases hs : sched i with
    | none => exact ⟨false, [], rfl, List.nil_prefix, by simp, fun h => absurd hs (h i)⟩
    | some k =>
      have hp : parse sep hdr (q ++ []) = [] := by
        rcases hst with h | h
        · rw [List.append_nil]; exact parse_none h.1
        · exact h []
      exact ⟨true, [], by simp, by simp, fun _ => hp.symm, fun _ => rfl⟩
  | succ n ih =>
    intro i rest b q hdr hn hr hsz hcap hst
    rw [outer]
    cases hs : sched i with
    | none => exact ⟨false, [], rfl, List.nil_prefix, by simp, fun h => absurd hs (h i)⟩
    | some k =>
      simp only []
      by_cases h0 : min (k + 1) (min b.appendLen rest.length) = 0
      · have hp : parse sep hdr (q ++ rest) = [] := by
          rcases hst with h | h
          · have : rest = [] := List.length_eq_zero_iff.1 (by omega)
            subst this
            rw [List.append_nil]; exact parse_none h.1
          · exact h rest
        simp only [h0, dif_pos]
        exact ⟨true, [], rfl, by simp, fun _ => hp.symm, fun _ => rfl⟩
      · simp only [h0, dif_neg, not_false_eq_true]
        generalize hm : min (k + 1) (min b.appendLen rest.length) = m at h0
        obtain ⟨b1, hb1, hr1, _, hc1⟩ := fill_rep (bs := rest.take m) hr (by simp; omega)
        have hs1 := fill_size hb1
        have hl1 := hr1.hl
        have htl : (rest.take m).length = m := by simp; omega
        obtain ⟨hdr', b', out, q', h3, h4, h5, h6, h7, h8⟩ :=
          inner_spec sep (b.size + m) (by omega) (b1.inputLen + 1) hdr b1 _ hr1 (by omega) (by omega)
            (by unfold Buf.inputLen; omega)
        obtain ⟨ok, o, h9, h10, h11, h12⟩ := ih (i + 1) (rest.drop m) b' q' hdr' (by simp; omega) h4 (by simp; omega) h6 h8
        have heq : parse sep hdr (q ++ rest) = out ++ parse sep hdr' (q' ++ rest.drop m) := by
          rw [← h7, List.append_assoc, List.take_append_drop]
        refine ⟨ok, out ++ o, by simp [hb1, h3, h9], ?_, ?_, h12⟩
        · rw [heq]; exact (List.prefix_append_right_inj _).2 h10
        · intro hk; rw [heq, h11 hk]

/-- For every way the reads cut the file, and wherever one fails: no undefined behaviour; the pairs reported are those of the complete
lines before the first one without separator, fewer only if a read failed. -/
theorem C41_reports (sep : Byte) (skipHeader : Bool) (sched : Nat → Option Nat) (file : Str) (hl : file.length ≤ 2 ^ 61) :
    ∃ ok out, readProcFile sep skipHeader sched file = some (ok, out) ∧
      (let good := (((complete file).drop (if skipHeader then 1 else 0)).takeWhile (sep ∈ ·)).filterMap (keyValue sep)
       out <+: good ∧ (ok = true → out = good)) ∧ ((∀ i, sched i ≠ none) → ok = true) := by
  obtain ⟨b, hb, hr⟩ := create_rep (c := 512) (by decide) (by decide)
  have hbs : b.size = 0 ∧ b.cap = 512 := by
    have : create 512 = some { buf := some (List.replicate 512 none), offs := 0, size := 0, cap := 512, gen := 1 } := by rfl
    rw [hb] at this; cases this; exact ⟨rfl, rfl⟩
  obtain ⟨ok, out, h1, h2, h3, h4⟩ := outer_spec sep sched file.length (by omega) file.length 0 file b [] (!skipHeader)
    (Nat.le_refl _) hr (by omega) (by omega) (.inl ⟨by simp, by unfold Buf.appendLen; omega⟩)
  refine ⟨ok, out, by simp [readProcFile, hb, h1], ?_, h4⟩
  simp only [List.nil_append, parse] at h2 h3
  cases skipHeader <;> exact ⟨h2, h3⟩

/-- The property: every key-value line of the file is reported, in order, if all its lines end with LF and have the separator. -/
theorem C41_all_pairs_partial (sep : Byte) (skipHeader : Bool) (sched : Nat → Option Nat) (file : Str) (hl : file.length ≤ 2 ^ 61)
    (hsched : ∀ i, sched i ≠ none) (hend : file = [] ∨ file.getLast? = some 10)
    (hsep : ∀ l ∈ (complete file).drop (if skipHeader then 1 else 0), sep ∈ l) :
    readProcFile sep skipHeader sched file = some (true, pairs sep skipHeader file) := by
  obtain ⟨ok, out, h1, ⟨h2, h3⟩, h4⟩ := C41_reports sep skipHeader sched file hl
  have hok := h4 hsched
  rw [h1, hok, h3 hok]
  have htw : ((complete file).drop (if skipHeader then 1 else 0)).takeWhile (sep ∈ ·) =
      (complete file).drop (if skipHeader then 1 else 0) := by
    generalize (complete file).drop (if skipHeader then 1 else 0) = ls at hsep
    clear h1 h2 h3 h4
    induction ls with
    | nil => rfl
    | cons l ls ih =>
      rw [List.takeWhile_cons_of_pos (by simpa using hsep l (by simp)), ih (fun x hx => hsep x (by simp [hx]))]
  rw [htw, pairs]
  have hsplit : split 10 file = complete file ++ [[]] := by
    have : ∀ s : Str, s = [] ∨ s.getLast? = some 10 → (split 10 s).getLast? = some [] := by
      intro s
      induction s with
      | nil => intro _; rfl
      | cons d s ih =>
        intro h
        have hne := split_ne_nil 10 s
        by_cases hd : d = 10
        · subst hd
          simp only [split, beq_self_eq_true, if_true]
          by_cases hs : s = []
          · subst hs; rfl
          · have hg : s.getLast? = some 10 := by
              rcases h with h | h
              · simp at h
              · rw [List.getLast?_cons] at h
                cases hg : s.getLast? with
                | none => exact absurd (List.getLast?_eq_none_iff.1 hg) hs
                | some x => rw [hg] at h; simpa using h
            rw [List.getLast?_cons, ih (.inr hg)]; rfl
        · have hs : s ≠ [] := by
            rintro rfl
            rcases h with h | h
            · simp at h
            · simp at h; exact hd h
          have hg : s.getLast? = some 10 := by
            rcases h with h | h
            · simp at h
            · rw [List.getLast?_cons] at h
              cases hg : s.getLast? with
              | none => exact absurd (List.getLast?_eq_none_iff.1 hg) hs
              | some x => rw [hg] at h; simpa using h
          have hb : (d == 10) = false := by simp [hd]
          have := ih (.inr hg)
          simp only [split, hb, Bool.false_eq_true, if_false]
          cases hs' : split 10 s with
          | nil => exact absurd hs' hne
          | cons p ps =>
            rw [hs'] at this
            cases ps with
            | nil =>
              simp at this
              have := (split_spec 10 s).1
              rw [hs'] at this
              simp_all [List.intercalate]
            | cons p' ps' => simpa [List.getLast?_cons] using this
    have hl := this file hend
    have hne := split_ne_nil 10 file
    rw [complete]
    have := List.dropLast_concat_getLast hne
    rw [List.getLast?_eq_some_getLast hne] at hl
    simp only [Option.some.injEq] at hl
    rw [hl] at this
    exact this.symm
  have hnil : keyValue sep [] = none := by simp [keyValue]
  rw [hsplit]
  cases skipHeader
  · simp [hnil]
  · simp only [if_true]
    cases hc : complete file with
    | nil => simp
    | cons c cs => simp [hnil]

/-- Disagreement: a line without the separator, such as a blank one, hides all that follow. -/
theorem C41_line_without_separator_hides_rest (k : Nat) :
    readProcFile 61 false (fun _ => some k) (lit "A=1\n\nB=2\n") = some (true, [(lit "A", lit "1")]) ∧
    pairs 61 false (lit "A=1\n\nB=2\n") = [(lit "A", lit "1"), (lit "B", lit "2")] := by
  refine ⟨?_, by decide +kernel⟩
  obtain ⟨ok, out, h1, ⟨_, h3⟩, h4⟩ := C41_reports 61 false (fun _ => some k) (lit "A=1\n\nB=2\n") (by decide)
  have hok := h4 (by simp)
  rw [h1, hok, h3 hok]
  decide +kernel

/-- Disagreement: a last line without LF is not reported. -/
theorem C41_last_line_lost (sched : Nat → Option Nat) (hs : ∀ i, sched i ≠ none) :
    readProcFile 61 false sched (lit "A=1\nB=2") = some (true, [(lit "A", lit "1")]) ∧
    pairs 61 false (lit "A=1\nB=2") = [(lit "A", lit "1"), (lit "B", lit "2")] := by
  refine ⟨?_, by decide +kernel⟩
  obtain ⟨ok, out, h1, ⟨_, h3⟩, h4⟩ := C41_reports 61 false sched (lit "A=1\nB=2") (by decide)
  have hok := h4 hs
  rw [h1, hok, h3 hok]
  decide +kernel

/-- `find_nth`: the position of the occurrence number `index` (from 0) of a character. -/
theorem C41_find_nth (c : Byte) (s : Str) (index i : Nat) :
    findNth c s index = some i ↔ s[i]? = some c ∧ (s.take i).count c = index := by
  induction s generalizing index i with
  | nil => simp [findNth]
  | cons d s ih =>
    simp only [findNth]
    by_cases h : d = c
    · subst h
      simp only [beq_self_eq_true, if_true]
      by_cases h0 : index = 0
      · subst h0
        simp only [if_true, Option.some.injEq]
        cases i with
        | zero => simp
        | succ i => simp
      · simp only [h0, if_false, Option.map_eq_some_iff]
        cases i with
        | zero => simp; omega
        | succ i =>
          simp only [Nat.add_right_cancel_iff, exists_eq_right, List.getElem?_cons_succ, List.take_succ_cons, List.count_cons_self]
          rw [ih]
          constructor
          · rintro ⟨h1, h2⟩; exact ⟨h1, by omega⟩
          · rintro ⟨h1, h2⟩; exact ⟨h1, by omega⟩
    · have hb : (d == c) = false := by simp [h]
      simp only [hb, Bool.false_eq_true, if_false, Option.map_eq_some_iff]
      cases i with
      | zero => simp [h]
      | succ i =>
        simp only [Nat.add_right_cancel_iff, exists_eq_right, List.getElem?_cons_succ, List.take_succ_cons]
        rw [ih, List.count_cons_of_ne h]

/-! A case that meets the hypotheses, as read in pieces of 3 bytes. -/
example : (let f := lit "VmPeak:\t 10 kB\nVmSize: 7 kB\n"
    (f = [] ∨ f.getLast? = some 10) ∧ (∀ l ∈ (complete f).drop (if false then 1 else 0), 58 ∈ l) ∧
    pairs 58 false f = [(lit "VmPeak", lit "10 kB"), (lit "VmSize", lit "7 kB")]) := by decide +kernel
example : pairs 58 true (lit "head\n0: x\n") = [(lit "0", lit "x")] := by decide +kernel

end Verif.Proc
