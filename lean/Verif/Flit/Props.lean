import Verif.Flit.Lemmas2
/-!
# C05, C06, C07: flit variable-length integers and ZigZag

`w = 8` is the 64-bit form (`Encode64`, `Parse64Fast`, `Parse64Safe`, `ParseT<uint64_t>`), `w = 4` the
32-bit form. The parameter `over` is explained in the model: it is what the compiled code yields for
`T(1) << 8*sizeof(T)`, and `none` is the standard's "undefined behaviour".
-/
namespace Verif.Flit

/-- C05, length: the encoder writes the least number `n` of bytes with `v < 2^(7n)`, and `w+1` bytes when
no `n ≤ w` suffices. -/
theorem encode_is_shortest (w v : Nat) (hw : w = 4 ∨ w = 8) (_hv : v < 2 ^ (8 * w)) :
    (v < 2 ^ (7 * w) → 1 ≤ (encode w v).length ∧ (encode w v).length ≤ w ∧
      v < 2 ^ (7 * (encode w v).length) ∧
      ∀ n, 1 ≤ n → v < 2 ^ (7 * n) → (encode w v).length ≤ n) ∧
    (2 ^ (7 * w) ≤ v → (encode w v).length = w + 1) := by
  refine ⟨fun h => ?_, fun h => length_encode_large h⟩
  obtain ⟨h1, hn, h2, _, _⟩ := encWord hw h
  have hv63 : v < 2 ^ 63 := Nat.lt_of_lt_of_le h (Nat.pow_le_pow_right (by decide) (by omega))
  rw [length_encode_small hw h]
  exact ⟨h1, hn, h2, (encodingLength_spec hw _hv hv63).2.2⟩

/-- C05, `ParseT` inverts the encoder (partial: for values whose encoding is not exactly `w` bytes
long; see `parseT_undefined`). Holds for every compilation, every value and every following bytes, as long
as `w` bytes are accessible, as the code documents. -/
theorem parseT_roundtrip_partial (w v : Nat) (hw : w = 4 ∨ w = 8) (hv : v < 2 ^ (8 * w))
    (over : Option Nat) (rest : List UInt8) (hacc : w ≤ (encode w v ++ rest).length)
    (hlen : (encode w v).length ≠ w) :
    parseT over w (encode w v ++ rest) = .ok v (encode w v).length := by
  by_cases hs : v < 2 ^ (7 * w)
  · rw [length_encode_small hw hs] at hlen ⊢
    exact parseT_small hw hs over rest hacc (fun e => absurd e hlen)
  · rw [length_encode_large (by omega)]
    exact parseT_large hw (by omega) hv over rest

/-- C05, all values, for a compilation in which the over-wide shift yields 0 (e.g. BMI2 `bzhi`). -/
theorem parseT_roundtrip_if_shift_saturates (w v : Nat) (hw : w = 4 ∨ w = 8) (hv : v < 2 ^ (8 * w))
    (rest : List UInt8) (hacc : w ≤ (encode w v ++ rest).length) :
    parseT (some 0) w (encode w v ++ rest) = .ok v (encode w v).length := by
  by_cases hs : v < 2 ^ (7 * w)
  · rw [length_encode_small hw hs]
    exact parseT_small hw hs _ rest hacc (fun _ => rfl)
  · rw [length_encode_large (by omega)]
    exact parseT_large hw (by omega) hv _ rest

/-- C05 is false of the code as written: for every value whose encoding has exactly `w` bytes (for 64 bits
all values in `[2^49, 2^56)`), the decoder executes a shift by the full word width, which C++ leaves
undefined. -/
theorem parseT_undefined (w v : Nat) (hw : w = 4 ∨ w = 8) (_hv : v < 2 ^ (8 * w))
    (hlen : (encode w v).length = w) (rest : List UInt8) :
    parseT none w (encode w v ++ rest) = .ub := by
  have hs : v < 2 ^ (7 * w) := by
    rcases Nat.lt_or_ge v (2 ^ (7 * w)) with h | h
    · exact h
    · rw [length_encode_large h] at hlen; omega
  obtain ⟨h1, hn, h2, _, hlt⟩ := encWord hw hs
  rw [length_encode_small hw hs] at hlen
  obtain ⟨j, hj⟩ := fromLE_enc (rest := rest) (k := w) h1 hn hlt
  unfold parseT load
  rw [if_pos (by simp [length_encode_small hw hs, hlen]), encode_small hw hs, hj]
  simp only
  rw [if_neg (not_header hw h1 hn), countrZero_spec _ _ _ (by omega)]
  have e : encodingLength w v - 1 + 1 = w := by omega
  rw [e]
  simp [mask]

/-- The undefined case is not exotic: `2^49` and `2^56 - 1` (64 bits) and `2^21` (32 bits) hit it, and with
the plain x86 `shl` instruction the decoder then returns 0. -/
theorem parseT_wrong_with_x86_shl :
    parse64Fast none (encode 8 (2 ^ 49)) = .ub ∧ parseT none 4 (encode 4 (2 ^ 21)) = .ub ∧
    parse64Fast (some 1) (encode 8 (2 ^ 49)) = .ok 0 8 ∧
    parse64Fast (some 1) (encode 8 (2 ^ 56 - 1)) = .ok 0 8 ∧
    parse64Safe (some 1) (encode 8 (2 ^ 49)) 0 = .ok 0 8 := by decide +kernel

/-- C05, `Parse64Fast` (partial as above). -/
theorem parse64Fast_roundtrip_partial (v : Nat) (hv : v < 2 ^ 64) (over : Option Nat)
    (rest : List UInt8) (hacc : 8 ≤ (encode 8 v ++ rest).length)
    (hlen : (encode 8 v).length = 8 → over = some 0) :
    parse64Fast over (encode 8 v ++ rest) = .ok v (encode 8 v).length := by
  rw [parse64Fast_eq]
  by_cases h : (encode 8 v).length = 8
  · rw [hlen h]
    exact parseT_roundtrip_if_shift_saturates 8 v (Or.inr rfl) hv rest hacc
  · exact parseT_roundtrip_partial 8 v (Or.inr rfl) hv over rest hacc h

/-- C05, `Parse64Safe` (partial as above), whatever `*v` held before. -/
theorem parse64Safe_roundtrip_partial (v : Nat) (hv : v < 2 ^ 64) (over : Option Nat)
    (rest : List UInt8) (v0 : Nat) (hlen : (encode 8 v).length = 8 → over = some 0) :
    parse64Safe over (encode 8 v ++ rest) v0 = .ok v (encode 8 v).length := by
  by_cases hs : v < 2 ^ 56
  · rw [length_encode_small (Or.inr rfl) hs] at hlen ⊢
    exact safe_small hs over rest v0 hlen
  · rw [length_encode_large (w := 8) (by omega)]
    exact safe_large (by omega) hv over rest v0

/-- C05, self-delimiting: the first byte alone gives the length of the encoding. -/
theorem parseLength_of_first_byte (w v : Nat) (hw : w = 4 ∨ w = 8) (hv : v < 2 ^ (8 * w)) :
    ∃ b t, encode w v = b :: t ∧ parseLength w b = (encode w v).length :=
  parseLength_encode hw hv

/-- C05, `EncodeTFast` returns the same length, its bytes start with the same encoding, and it stores at
most `w+1` bytes (`Trait<T>::kMaxSize`). -/
theorem encodeFast_extends_encode (w v : Nat) (hw : w = 4 ∨ w = 8) (_hv : v < 2 ^ (8 * w)) :
    (encodeFast w v).2 = (encode w v).length ∧
    ((encodeFast w v).1).take (encodeFast w v).2 = encode w v ∧
    (encodeFast w v).1.length ≤ w + 1 := by
  by_cases hs : v < 2 ^ (7 * w)
  · obtain ⟨h1, hn, h2, h4, hlt⟩ := encWord hw hs
    have htake : ∀ (n k x : Nat), n ≤ k → (leBytes k x).take n = leBytes n x := by
      intro n
      induction n with
      | zero => intro k x _; simp [leBytes]
      | succ n ih =>
        intro k x hk
        obtain ⟨k', rfl⟩ : ∃ k', k = k' + 1 := ⟨k - 1, by omega⟩
        simp only [leBytes, List.take_succ_cons]
        rw [ih k' _ (by omega)]
    rw [length_encode_small hw hs, encode_small hw hs]
    unfold encodeFast
    rw [if_neg (by omega)]
    simp only
    rw [h4]
    exact ⟨trivial, htake _ _ _ hn, by rw [length_leBytes]; omega⟩
  · have hl : 2 ^ (7 * w) ≤ v := by omega
    rw [length_encode_large hl, encode_large_cons hl]
    unfold encodeFast
    rw [if_pos hl]
    refine ⟨rfl, ?_, ?_⟩
    · exact List.take_of_length_le (by simp [length_leBytes])
    · simp [length_leBytes]

/-- C05, `EncodingLength` equals the number of bytes written for every value below 2^63. -/
theorem encodingLength_exact_partial (w v : Nat) (hw : w = 4 ∨ w = 8) (hv : v < 2 ^ (8 * w))
    (hv63 : v < 2 ^ 63) : encodingLength w v = (encode w v).length := by
  by_cases hs : v < 2 ^ (7 * w)
  · rw [length_encode_small hw hs]
  · have hl : 2 ^ (7 * w) ≤ v := by omega
    rw [length_encode_large hl]
    obtain ⟨h1, h2, h3⟩ := encodingLength_spec hw hv hv63
    have hle : encodingLength w v ≤ w + 1 := h3 (w + 1) (by omega) (by
      rcases hw with rfl | rfl
      · exact Nat.lt_trans hv (by decide)
      · exact hv63)
    have : ¬ encodingLength w v ≤ w := fun c => hs (Nat.lt_of_lt_of_le h2
      (Nat.pow_le_pow_right (by decide) (by omega)))
    omega

/-- For `v ≥ 2^63` it reports 10 although 9 bytes are written. -/
theorem encodingLength_overestimates : encodingLength 8 (2 ^ 63) = 10 ∧ (encode 8 (2 ^ 63)).length = 9 := by
  decide +kernel

/-- C05: the comment on `Parse64Fast` ("works for decoding uint32 as well") is false for 32-bit values from
2^28 on: the value comes back shifted. -/
theorem parse64Fast_misreads_encode32 :
    parse64Fast none (encode 4 (2 ^ 28) ++ [0, 0, 0]) = .ok (2 ^ 31) 5 := by decide +kernel

/-- C06 (partial). `Parse64Safe` does not read outside its range if the range is not empty and is not an
8-byte range starting with a zero byte. -/
theorem parse64Safe_in_bounds_partial (over : Option Nat) (m : List UInt8) (v0 : Nat) (hne : m ≠ [])
    (h8 : ¬ (m.length = 8 ∧ m.head? = some 0)) : parse64Safe over m v0 ≠ .oob := by
  cases m with
  | nil => exact absurd rfl hne
  | cons b t =>
    unfold parse64Safe
    simp only
    split
    · rename_i hb
      have hb0 : b = 0 := UInt8.toNat_inj.mp hb
      split
      · simp
      · rename_i hlen
        unfold load
        rw [if_pos ?_]
        · simp only; split <;> simp
        · simp only [List.length_cons, List.head?_cons, hb0, and_true] at hlen h8
          omega
    · split
      · simp
      · split <;> simp

/-- C06 is false of the code: an 8-byte range starting with 0 passes the size check and nine bytes are
read; an empty range is dereferenced. -/
theorem parse64Safe_reads_out_of_bounds :
    parse64Safe (some 0) (List.replicate 8 0) 0 = .oob ∧ parse64Safe (some 0) [] 0 = .oob := by
  decide +kernel

/-- C07, ZigZag decoding inverts encoding, at every width (32, 64, ...). -/
theorem zigZag_decode_encode (n : Nat) (hn : 0 < n) (t : BitVec n) : zigZagDecode (zigZagEncode t) = t := by
  obtain ⟨m, rfl⟩ : ∃ m, n = m + 1 := ⟨n - 1, by omega⟩
  exact zigzag_dec_enc t

/-- C07, ZigZag encoding inverts decoding. -/
theorem zigZag_encode_decode (n : Nat) (hn : 0 < n) (t : BitVec n) : zigZagEncode (zigZagDecode t) = t := by
  obtain ⟨m, rfl⟩ : ∃ m, n = m + 1 := ⟨n - 1, by omega⟩
  exact zigzag_enc_dec t

/-- C07, the code of a non-negative `x` is `2x`, of a negative `x` it is `-2x-1`. -/
theorem zigZag_code (n : Nat) (hn : 0 < n) (t : BitVec n) :
    ((zigZagEncode t).toNat : Int) = if 0 ≤ t.toInt then 2 * t.toInt else -2 * t.toInt - 1 := by
  obtain ⟨m, rfl⟩ : ∃ m, n = m + 1 := ⟨n - 1, by omega⟩
  exact zigzag_value t

/-- Concrete cases. -/
example : encode 8 300 = [0xb2, 0x04] ∧ parse64Fast none (encode 8 300 ++ [1, 2, 3, 4, 5, 6]) = .ok 300 2 := by
  decide +kernel
example : (encode 8 300).length ≠ 8 ∧ (encode 8 (2 ^ 49)).length = 8 := by decide +kernel
example : zigZagEncode (-2#32) = 3#32 ∧ zigZagDecode 3#32 = -2#32 := by decide

end Verif.Flit
