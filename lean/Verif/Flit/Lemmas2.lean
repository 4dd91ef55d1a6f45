import Verif.Flit.Lemmas
namespace Verif.Flit

theorem parse64Fast_eq (over : Option Nat) (m : List UInt8) : parse64Fast over m = parseT over 8 m := by
  unfold parse64Fast parseT
  rfl

theorem encode_large_cons {w v : Nat} (hv : 2 ^ (7 * w) ≤ v) :
    encode w v = UInt8.ofNat ((1 <<< w) &&& 0xFF) :: leBytes w v := by
  unfold encode; rw [if_pos hv]

/-- The first byte of a short encoding. -/
theorem encode_small_head {w v : Nat} (hw : w = 4 ∨ w = 8) (hv : v < 2 ^ (7 * w)) :
    ∃ b t, encode w v = b :: t ∧
      b.toNat = (2 * v + 1) * 2 ^ (encodingLength w v - 1) % 256 := by
  obtain ⟨h1, hn, h2, _, hlt⟩ := encWord hw hv
  rw [encode_small hw hv]
  obtain ⟨n', hn'⟩ : ∃ n', encodingLength w v = n' + 1 := ⟨encodingLength w v - 1, by omega⟩
  rw [hn']
  refine ⟨_, _, rfl, ?_⟩
  rw [UInt8.toNat_ofNat']

theorem countrZero_mod {n a : Nat} (h1 : 1 ≤ n) (hn : n ≤ 8) :
    countrZero 8 ((2 * a + 1) * 2 ^ (n - 1) % 256) = n - 1 := by
  have e : (2 * a + 1) * 2 ^ (n - 1) % 256 = (2 * (a % 2 ^ (8 - n)) + 1) * 2 ^ (n - 1) := by
    have hn8 : n = 1 ∨ n = 2 ∨ n = 3 ∨ n = 4 ∨ n = 5 ∨ n = 6 ∨ n = 7 ∨ n = 8 := by omega
    rcases hn8 with rfl | rfl | rfl | rfl | rfl | rfl | rfl | rfl <;> simp <;> omega
  rw [e, countrZero_spec _ _ _ (by omega)]

theorem mod_ne_zero {n a : Nat} (h1 : 1 ≤ n) (hn : n ≤ 8) :
    (2 * a + 1) * 2 ^ (n - 1) % 256 ≠ 0 := by
  have hn8 : n = 1 ∨ n = 2 ∨ n = 3 ∨ n = 4 ∨ n = 5 ∨ n = 6 ∨ n = 7 ∨ n = 8 := by omega
  rcases hn8 with rfl | rfl | rfl | rfl | rfl | rfl | rfl | rfl <;> simp <;> omega

theorem safe_small {v : Nat} (hv : v < 2 ^ 56) (over : Option Nat) (rest : List UInt8) (v0 : Nat)
    (hover : encodingLength 8 v = 8 → over = some 0) :
    parse64Safe over (encode 8 v ++ rest) v0 = .ok v (encodingLength 8 v) := by
  have hw : (8 = 4 ∨ 8 = 8) := Or.inr rfl
  obtain ⟨h1, hn, h2, _, hlt⟩ := encWord hw hv
  obtain ⟨b, t, hbt, hb⟩ := encode_small_head hw hv
  have hlen := length_encode_small hw hv
  have hnz := mod_ne_zero (a := v) h1 hn
  have hctz : countrZero 8 b.toNat + 1 = encodingLength 8 v := by
    rw [hb, countrZero_mod h1 hn]; omega
  obtain ⟨j, hj⟩ := fromLE_enc (rest := rest) (k := encodingLength 8 v) h1 (Nat.le_refl _) hlt
  rw [← encode_small hw hv] at hj
  unfold parse64Safe
  rw [hbt, List.cons_append]
  simp only
  rw [if_neg (by rw [hb]; exact hnz), hctz, ← List.cons_append, ← hbt, hj,
    if_neg (by simp [hlen])]
  have hmask : mask over 8 (encodingLength 8 v) = some (2 ^ (encodingLength 8 v * 8) - 1) := by
    by_cases hlt' : encodingLength 8 v < 8
    · unfold mask; rw [if_pos hlt']
    · have he : encodingLength 8 v = 8 := by omega
      rw [hover he, he]
      exact mask_zero (by omega)
  rw [hmask]
  have e : v0 / 2 ^ (8 * encodingLength 8 v) * 2 ^ (8 * encodingLength 8 v) +
      (2 * (v + 2 ^ (7 * encodingLength 8 v) * j) + 1) * 2 ^ (encodingLength 8 v - 1)
      = (2 * (v + 2 ^ (7 * encodingLength 8 v) * (j + v0 / 2 ^ (8 * encodingLength 8 v))) + 1)
        * 2 ^ (encodingLength 8 v - 1) := by
    generalize encodingLength 8 v = n at *
    generalize v0 / 2 ^ (8 * n) = q
    have e8 : 8 * n = (7 * n + 1) + (n - 1) := by omega
    rw [e8, Nat.pow_add, Nat.pow_succ]
    generalize (2:Nat) ^ (7 * n) = x
    generalize (2:Nat) ^ (n - 1) = y
    rw [← Nat.mul_assoc, ← Nat.add_mul]
    congr 1
    rw [Nat.mul_add x j q, Nat.mul_comm x 2, Nat.mul_comm q, Nat.mul_assoc]
    omega
  simp only [e, mask_shift h1 h2]

theorem safe_large {v : Nat} (hv : 2 ^ 56 ≤ v) (hv' : v < 2 ^ 64) (over : Option Nat)
    (rest : List UInt8) (v0 : Nat) : parse64Safe over (encode 8 v ++ rest) v0 = .ok v 9 := by
  rw [encode_large_cons (w := 8) hv]
  unfold parse64Safe load
  have hl : (leBytes 8 v).length = 8 := length_leBytes 8 v
  simp only [List.cons_append]
  rw [if_pos (by decide), if_neg (by simp [hl]; omega), if_pos (by simp [hl])]
  have hld : fromLE (List.take 8 ((leBytes 8 v) ++ rest)) = v := by
    rw [List.take_append_of_le_length (by omega), List.take_of_length_le (by omega), fromLE_leBytes,
      pow256, Nat.mod_eq_of_lt hv']
  simp only [hld]
  rw [if_neg (by omega)]

theorem parseLength_encode {w v : Nat} (hw : w = 4 ∨ w = 8) (_hv : v < 2 ^ (8 * w)) :
    ∃ b t, encode w v = b :: t ∧ parseLength w b = (encode w v).length := by
  by_cases hl : v < 2 ^ (7 * w)
  · obtain ⟨h1, hn, h2, _, hlt⟩ := encWord hw hl
    obtain ⟨b, t, hbt, hb⟩ := encode_small_head hw hl
    refine ⟨b, t, hbt, ?_⟩
    rw [length_encode_small hw hl]
    unfold parseLength
    have hnh := not_header (a := v) hw h1 hn
    have hb' : b.toNat &&& 255 = (2 * v + 1) * 2 ^ (encodingLength w v - 1) &&& 255 := by
      rw [hb, show (255 : Nat) = 2 ^ 8 - 1 by decide, Nat.and_two_pow_sub_one_eq_mod,
        Nat.and_two_pow_sub_one_eq_mod]
      omega
    rw [hb', if_neg hnh, hb, countrZero_mod h1 (by omega)]
    omega
  · have hl' : 2 ^ (7 * w) ≤ v := by omega
    refine ⟨_, _, encode_large_cons hl', ?_⟩
    rw [length_encode_large hl']
    unfold parseLength
    rcases hw with rfl | rfl <;> decide

/-! ## ZigZag -/

theorem sshiftRight_top {n : Nat} (t : BitVec (n + 1)) :
    t.sshiftRight n = if t.msb then BitVec.allOnes (n + 1) else 0#(n + 1) := by
  apply BitVec.eq_of_getLsbD_eq
  intro i hi
  rw [BitVec.getLsbD_sshiftRight]
  by_cases h0 : i = 0
  · subst h0
    have hm : t.getLsbD n = t.msb := by simp [BitVec.msb_eq_getLsbD_last]
    simp only [Nat.add_zero, Nat.lt_add_one, if_true, hm]
    split <;> rename_i h <;> simp [h]
  · have h1 : ¬ (n + i < n + 1) := by omega
    rw [if_neg h1]
    have h2 : ¬ (n + 1 ≤ i) := by omega
    split <;> rename_i h <;> simp [h, hi, h2]

theorem neg_and_one {n : Nat} (t : BitVec (n + 1)) :
    -(t &&& 1#(n + 1)) = if t.getLsbD 0 then BitVec.allOnes (n + 1) else 0#(n + 1) := by
  have hand : t &&& 1#(n + 1) = if t.getLsbD 0 then 1#(n + 1) else 0#(n + 1) := by
    apply BitVec.eq_of_getLsbD_eq
    intro i hi
    rw [BitVec.getLsbD_and, BitVec.getLsbD_one]
    by_cases h0 : i = 0
    · subst h0
      cases h : t.getLsbD 0 <;> simp
    · split <;> simp [h0]
  rw [hand]
  split
  · exact BitVec.neg_one_eq_allOnes
  · simp

theorem zigzag_dec_enc {n : Nat} (t : BitVec (n + 1)) : zigZagDecode (zigZagEncode t) = t := by
  unfold zigZagDecode
  have hmsb : t.msb = t.getLsbD n := by simp [BitVec.msb_eq_getLsbD_last]
  have henc : ∀ i, i < n + 1 → (zigZagEncode t).getLsbD i =
      ((decide (1 ≤ i) && t.getLsbD (i - 1)) ^^ t.msb) := by
    intro i hi
    unfold zigZagEncode
    simp only [Nat.add_sub_cancel, sshiftRight_top]
    rw [BitVec.getLsbD_xor, BitVec.getLsbD_shiftLeft]
    cases t.msb
    · by_cases h1 : 1 ≤ i
      · have : ¬ i < 1 := by omega
        simp [hi, h1, this]
      · have : i = 0 := by omega
        subst this; simp
    · by_cases h1 : 1 ≤ i
      · have : ¬ i < 1 := by omega
        simp [hi, h1, this]
      · have : i = 0 := by omega
        subst this; simp
  rw [neg_and_one, henc 0 (by omega)]
  apply BitVec.eq_of_getLsbD_eq
  intro i hi
  rw [BitVec.getLsbD_xor, BitVec.getLsbD_ushiftRight]
  by_cases hin : i = n
  · subst hin
    rw [BitVec.getLsbD_of_ge _ (1 + i) (by omega)]
    rw [← hmsb]
    cases t.msb <;> simp [hi]
  · rw [henc (1 + i) (by omega)]
    have : 1 + i - 1 = i := by omega
    rw [this]
    cases t.msb <;> simp [hi]

theorem zigzag_enc_dec {n : Nat} (t : BitVec (n + 1)) : zigZagEncode (zigZagDecode t) = t := by
  have hdec : ∀ i, i < n + 1 → (zigZagDecode t).getLsbD i = (t.getLsbD (1 + i) ^^ t.getLsbD 0) := by
    intro i hi
    unfold zigZagDecode
    rw [neg_and_one, BitVec.getLsbD_xor, BitVec.getLsbD_ushiftRight]
    cases t.getLsbD 0 <;> simp [hi]
  have hmsb : (zigZagDecode t).msb = t.getLsbD 0 := by
    rw [BitVec.msb_eq_getLsbD_last]
    simp only [Nat.add_sub_cancel]
    rw [hdec n (by omega), BitVec.getLsbD_of_ge _ (1 + n) (by omega)]
    simp
  unfold zigZagEncode
  simp only [Nat.add_sub_cancel, sshiftRight_top, hmsb]
  apply BitVec.eq_of_getLsbD_eq
  intro i hi
  rw [BitVec.getLsbD_xor, BitVec.getLsbD_shiftLeft]
  by_cases h0 : i = 0
  · subst h0
    cases t.getLsbD 0 <;> simp
  · have h1 : ¬ i < 1 := by omega
    rw [hdec (i - 1) (by omega)]
    have : 1 + (i - 1) = i := by omega
    rw [this]
    cases t.getLsbD 0 <;> simp [hi, h1]

theorem zigzag_value {n : Nat} (t : BitVec (n + 1)) :
    ((zigZagEncode t).toNat : Int) = if 0 ≤ t.toInt then 2 * t.toInt else -2 * t.toInt - 1 := by
  unfold zigZagEncode
  simp only [Nat.add_sub_cancel, sshiftRight_top]
  have hlt := t.isLt
  have hpow : 2 ^ (n + 1) = 2 * 2 ^ n := by rw [Nat.pow_succ]; omega
  rw [BitVec.toInt_eq_msb_cond]
  have hm := BitVec.msb_eq_decide t
  simp only [Nat.add_sub_cancel] at hm
  cases hmsb : t.msb
  · rw [hmsb] at hm
    have h2 : ¬ 2 ^ n ≤ t.toNat := by simpa using hm.symm
    simp only [Bool.false_eq_true, if_false, BitVec.xor_zero, BitVec.toNat_shiftLeft]
    rw [if_pos (by omega), Nat.shiftLeft_eq, Nat.mod_eq_of_lt (by omega)]
    omega
  · rw [hmsb] at hm
    have h2 : 2 ^ n ≤ t.toNat := by simpa using hm.symm
    simp only [if_true, BitVec.xor_allOnes, BitVec.toNat_not, BitVec.toNat_shiftLeft]
    rw [if_neg (by omega), Nat.shiftLeft_eq]
    have : t.toNat * 2 ^ 1 % 2 ^ (n + 1) = 2 * t.toNat - 2 ^ (n + 1) := by
      rw [Nat.mod_eq_sub_mod (by omega), Nat.mod_eq_of_lt (by omega)]; omega
    rw [this]
    omega

end Verif.Flit
