import Verif.Url.Lemmas
/-!
C36: percent-encoding round-trips; decoding fails exactly on malformed escapes.
-/
namespace Verif.Url
open Spec

theorem encodeLoop_spec : ∀ (src : List UInt8) (cap : Nat), 3 * src.length + 1 ≤ cap →
    ∃ e, encodeLoop src cap = some e ∧ UrlText Safe e ∧ Means e src := by
  intro src
  induction src with
  | nil => intro cap h; exact ⟨[], by simp at h; simp [encodeLoop, h], .nil, .nil⟩
  | cons c cs ih =>
    intro cap h
    simp only [List.length_cons] at h
    by_cases hv : isValid c = true
    · obtain ⟨e, he, hu, hm⟩ := ih (cap - 1) (by omega)
      have hs := (valid_iff c).1 hv
      refine ⟨c :: e, ?_, .lit hs hu, .lit (safe_ne hs) hm⟩
      have : 1 ≤ cap := by omega
      simp [encodeLoop, hv, he, this]
    · obtain ⟨e, he, hu, hm⟩ := ih (cap - 3) (by omega)
      have hs : ¬ Safe c := fun h => hv ((valid_iff c).2 h)
      have hdm : c.toNat = 16 * (c.toNat / 16) + c.toNat % 16 := by omega
      refine ⟨37 :: digit ((c >>> 4) &&& 15) :: digit (c &&& 15) :: e, ?_, .esc (hi_digit c) (lo_digit c) hdm hs hu,
        .esc (HexUpper.hex (hi_digit c)) (HexUpper.hex (lo_digit c)) hdm hm⟩
      have : 3 ≤ cap := by omega
      simp [encodeLoop, hv, he, this]

/-- Encoding never writes outside the buffer; what it appends consists of safe characters and escapes of unsafe ones, and it
stands for the source. -/
theorem C36_encode (src dest : List UInt8) :
    ∃ e, appendUrlEncoded src dest = some (dest ++ e) ∧ UrlText Safe e ∧ Means e src := by
  obtain ⟨e, he, h⟩ := encodeLoop_spec src (src.length * 3 + 1) (by omega)
  exact ⟨e, by simp [appendUrlEncoded, he], h⟩

/-- Decoding succeeds exactly on texts that stand for some bytes, and then appends these bytes. -/
theorem C36_decode_partial (src dest : List UInt8) (hne : src ≠ [] ∨ dest ≠ []) (hl : src.length + 3 ≤ 2 ^ 32) (r : List UInt8) :
    appendUrlDecoded src dest = some (true, r) ↔ ∃ s, Means src s ∧ r = dest ++ s := by
  have h0 : ¬ (src.length + dest.length = 0) := by
    rcases hne with h | h <;> have := List.length_pos_iff.2 h <;> omega
  simp only [appendUrlDecoded, h0, if_false, decodeLoop_eq hl src.length 0 (by omega) (by omega), List.drop_zero]
  constructor
  · intro h
    split at h <;> simp_all
    rename_i bs hd
    exact ⟨bs, (dec_ok_iff _ _).1 hd, h.symm⟩
  · rintro ⟨s, hs, rfl⟩
    rw [(dec_ok_iff _ _).2 hs]

/-- Otherwise it returns false and leaves the destination as it was. -/
theorem C36_decode_malformed_partial (src dest : List UInt8) (hne : src ≠ [] ∨ dest ≠ []) (hl : src.length + 3 ≤ 2 ^ 32) :
    appendUrlDecoded src dest = some (false, dest) ↔ ¬ ∃ s, Means src s := by
  have h0 : ¬ (src.length + dest.length = 0) := by
    rcases hne with h | h <;> have := List.length_pos_iff.2 h <;> omega
  simp only [appendUrlDecoded, h0, if_false, decodeLoop_eq hl src.length 0 (by omega) (by omega), List.drop_zero]
  cases hd : dec src with
  | ok bs => simp; exact ⟨bs, (dec_ok_iff _ _).1 hd⟩
  | fail => simp only [true_iff]; rintro ⟨s, hs⟩; rw [(dec_ok_iff _ _).2 hs] at hd; cases hd
  | ub => exact absurd hd (dec_ne_ub _)

/-- A text stands for at most one byte string. -/
theorem C36_unambiguous {e s t : List UInt8} (h : Means e s) (h' : Means e t) : s = t := by
  have a := (dec_ok_iff _ _).2 h
  have b := (dec_ok_iff _ _).2 h'
  rw [a] at b; simpa using b

/-- Round trip: decoding what encoding a non-empty string appended gives the string back. -/
theorem C36_round_trip_partial (src dest : List UInt8) (hne : src ≠ []) (hl : 3 * src.length + 3 ≤ 2 ^ 32) :
    ∃ e, appendUrlEncoded src [] = some e ∧ appendUrlDecoded e dest = some (true, dest ++ src) := by
  obtain ⟨e, he, hu, hm⟩ := C36_encode src []
  refine ⟨e, by simpa using he, ?_⟩
  have hlen : e.length ≤ 3 * src.length ∧ src.length ≤ e.length := by
    clear he hu hne hl
    induction hm with
    | nil => simp
    | lit _ _ ih => simp; omega
    | esc _ _ _ _ ih => simp; omega
  have := List.length_pos_iff.2 hne
  exact (C36_decode_partial e dest (.inl (List.length_pos_iff.1 (by omega))) (by omega) _).2 ⟨src, hm, rfl⟩

/-- Two different strings are never encoded alike. -/
theorem C36_encode_injective {s t e : List UInt8} (hs : appendUrlEncoded s [] = some e) (ht : appendUrlEncoded t [] = some e) :
    s = t := by
  obtain ⟨a, ha, _, hma⟩ := C36_encode s []
  obtain ⟨b, hb, _, hmb⟩ := C36_encode t []
  rw [hs] at ha; rw [ht] at hb
  simp only [List.nil_append, Option.some.injEq] at ha hb
  subst ha; subst hb
  exact C36_unambiguous hma hmb

/-- Disagreement: decoding an empty text onto an empty string calls `front()` on an empty string. -/
theorem C36_empty_ub : appendUrlDecoded [] [] = none := rfl

/-- Disagreement: the 32-bit index never reaches the end of a text of 4 GiB or more; a text without escapes makes the decoder
write past its destination. -/
theorem C36_huge_ub (src dest : List UInt8) (hl : 2 ^ 32 ≤ src.length) (hp : ∀ c ∈ src, c ≠ 37) :
    appendUrlDecoded src dest = none := by
  have key : ∀ cap i, i < 2 ^ 32 → decodeLoop src cap i = .ub := by
    intro cap
    have hstep : ∀ i, i < 2 ^ 32 → ∃ c, decodeStep src i = .byte c (w32 (i + 1)) := by
      intro i hi
      have hlt : i < src.length := by omega
      have := hp _ (List.getElem_mem hlt)
      exact ⟨src[i], by simp [decodeStep, hlt, this]⟩
    induction cap with
    | zero => intro i hi; obtain ⟨c, hc⟩ := hstep i hi; simp [decodeLoop, hc]
    | succ cap ih =>
      intro i hi; obtain ⟨c, hc⟩ := hstep i hi
      simp only [decodeLoop, hc]
      rw [ih (w32 (i + 1)) (Nat.mod_lt _ (by decide))]; rfl
  have h0 : ¬ (src.length + dest.length = 0) := by omega
  simp only [appendUrlDecoded, h0, if_false, key src.length 0 (by decide)]

/-- `util::http::UrlEncode` on ASCII text: same format, slightly different safe set. -/
theorem C36_http_encode_partial (src : List UInt8) (h : ∀ c ∈ src, c.toNat < 128) :
    ∃ e, httpUrlEncode src = some e ∧ UrlText SafeHttp e ∧ Means e src := by
  induction src with
  | nil => exact ⟨[], rfl, .nil, .nil⟩
  | cons c cs ih =>
    obtain ⟨e, he, hu, hm⟩ := ih (fun d hd => h d (by simp [hd]))
    have hv := validHttp_iff c (h c (by simp))
    by_cases hs : SafeHttp c
    · exact ⟨c :: e, by simp [httpUrlEncode, he, hv, hs], .lit hs hu, .lit (safeHttp_ne hs) hm⟩
    · have hdm : c.toNat = 16 * (c.toNat / 16) + c.toNat % 16 := by omega
      exact ⟨37 :: digit ((c >>> 4) &&& 15) :: digit (c &&& 15) :: e, by simp [httpUrlEncode, he, hv, hs],
        .esc (hi_digit c) (lo_digit c) hdm hs hu, .esc (HexUpper.hex (hi_digit c)) (HexUpper.hex (lo_digit c)) hdm hm⟩

/-- Disagreement: on any non-ASCII byte `util::http::UrlEncode` passes a negative value to `std::isalnum`. -/
theorem C36_http_encode_ub (src : List UInt8) (c : UInt8) (hc : c ∈ src) (h : 128 ≤ c.toNat) : httpUrlEncode src = none := by
  have hcn : isValidHttp c = none := by
    have : c ≥ 128 := by simpa [UInt8.le_iff_toNat_le] using h
    simp [isValidHttp, this]
  induction src with
  | nil => simp at hc
  | cons d ds ih =>
    rcases List.mem_cons.1 hc with rfl | hc
    · simp [httpUrlEncode, hcn]
    · rw [httpUrlEncode, ih hc]; cases isValidHttp d with
      | none => rfl
      | some b => cases b <;> rfl

/-! Concrete cases. -/
-- "a b/%" ++ 0xFF and its encoding "a%20b%2F%25%FF"
example : appendUrlEncoded [97, 32, 98, 47, 37, 255] [120] =
    some [120, 97, 37, 50, 48, 98, 37, 50, 70, 37, 50, 53, 37, 70, 70] := by decide +kernel
example : appendUrlDecoded [97, 37, 50, 48, 98, 37, 50, 102] [120] = some (true, [120, 97, 32, 98, 47]) := by decide +kernel
-- "%2" and "%zz" are malformed
example : appendUrlDecoded [37, 50] [120] = some (false, [120]) := by decide +kernel
example : appendUrlDecoded [37, 122, 122] [] = some (false, []) := by decide +kernel
example : httpUrlEncode [97, 42] = some [97, 37, 50, 65] := by decide +kernel

end Verif.Url
