import Verif.Flit.Model
namespace Verif.Flit

theorem length_leBytes (n v : Nat) : (leBytes n v).length = n := by
  induction n generalizing v with
  | zero => rfl
  | succ n ih => simp [leBytes, ih]

theorem fromLE_leBytes (n v : Nat) : fromLE (leBytes n v) = v % 256 ^ n := by
  induction n generalizing v with
  | zero => simp [leBytes, fromLE, Nat.mod_one]
  | succ n ih =>
    simp only [leBytes, fromLE, ih, UInt8.toNat_ofNat']
    have h8 : (2:Nat) ^ 8 = 256 := by decide
    rw [h8, Nat.pow_succ, Nat.mul_comm (256 ^ n) 256, Nat.mod_mul]

theorem fromLE_append (a b : List UInt8) : fromLE (a ++ b) = fromLE a + 256 ^ a.length * fromLE b := by
  induction a with
  | nil => simp [fromLE]
  | cons x a ih =>
    simp only [List.cons_append, fromLE, ih, List.length_cons, Nat.pow_succ, Nat.mul_add]
    rw [Nat.mul_comm (256 ^ a.length) 256, Nat.mul_assoc]
    omega

theorem pow256 (n : Nat) : (256:Nat) ^ n = 2 ^ (8 * n) := by
  rw [show (256:Nat) = 2 ^ 8 by decide, ← Nat.pow_mul]

theorem countrZero_spec (bits k a : Nat) (hk : k < bits) : countrZero bits ((2 * a + 1) * 2 ^ k) = k := by
  induction bits generalizing k with
  | zero => omega
  | succ bits ih =>
    unfold countrZero
    cases k with
    | zero =>
      rw [if_pos (by simp)]
    | succ k =>
      have h1 : (2 * a + 1) * 2 ^ (k + 1) % 2 = 0 := by
        rw [Nat.pow_succ, ← Nat.mul_assoc]; simp
      have h2 : (2 * a + 1) * 2 ^ (k + 1) / 2 = (2 * a + 1) * 2 ^ k := by
        rw [Nat.pow_succ, ← Nat.mul_assoc]; simp
      rw [if_neg (by omega), h2, ih k (by omega)]
      omega

/-- `(63 ^ clz)` is the index of the top bit, for both widths. -/
theorem xor_clz {w v : Nat} (hw : w = 4 ∨ w = 8) (hv : v < 2 ^ (8 * w)) :
    (w * 8 - 1) ^^^ countlZero (w * 8) (v ||| 1) = Nat.log2 (v ||| 1) := by
  have hor : v ||| 1 < 2 ^ (8 * w) := Nat.or_lt_two_pow hv (Nat.one_lt_two_pow (by omega))
  have hne : v ||| 1 ≠ 0 := by
    intro h
    have := (Nat.or_eq_zero_iff.mp h).2
    omega
  have hlog : Nat.log2 (v ||| 1) < 8 * w := (Nat.log2_lt hne).mpr hor
  unfold countlZero
  have h64 : ∀ i : Fin 64, 63 ^^^ (63 - i.val) = i.val := by decide
  have h32 : ∀ i : Fin 32, 31 ^^^ (31 - i.val) = i.val := by decide
  rcases hw with rfl | rfl
  · exact h32 ⟨_, hlog⟩
  · exact h64 ⟨_, hlog⟩

theorem div7_eq {i : Nat} (h : i < 63) : div7Small i = i / 7 := by
  have : ∀ i : Fin 63, div7Small i.val = i.val / 7 := by decide
  exact this ⟨i, h⟩

theorem log2_or_one (v : Nat) : Nat.log2 (v ||| 1) = Nat.log2 v := by
  by_cases h0 : v = 0
  · subst h0; decide
  · have hne : v ||| 1 ≠ 0 := fun h => h0 (Nat.or_eq_zero_iff.mp h).1
    have h1 : v ≤ v ||| 1 := Nat.left_le_or
    have hlt : v < 2 ^ (Nat.log2 v + 1) := Nat.lt_log2_self
    have hor : v ||| 1 < 2 ^ (Nat.log2 v + 1) :=
      Nat.or_lt_two_pow hlt (Nat.one_lt_two_pow (by omega))
    have hle : 2 ^ Nat.log2 v ≤ v := Nat.log2_self_le h0
    have a1 : Nat.log2 (v ||| 1) < Nat.log2 v + 1 := (Nat.log2_lt hne).mpr hor
    have a2 : Nat.log2 v ≤ Nat.log2 (v ||| 1) := (Nat.le_log2 hne).mpr (by omega)
    omega

/-- Below `2^63`, `EncodingLength` is the least `n ≥ 1` with `v < 2^(7n)`. -/
theorem encodingLength_spec {w v : Nat} (hw : w = 4 ∨ w = 8) (hv : v < 2 ^ (8 * w))
    (hv' : v < 2 ^ 63) :
    1 ≤ encodingLength w v ∧ v < 2 ^ (7 * encodingLength w v) ∧
      ∀ n, 1 ≤ n → v < 2 ^ (7 * n) → encodingLength w v ≤ n := by
  have e : encodingLength w v = 1 + Nat.log2 v / 7 := by
    simp only [encodingLength]
    rw [xor_clz hw hv, log2_or_one]
    by_cases h0 : v = 0
    · subst h0; decide
    · rw [div7_eq ((Nat.log2_lt h0).mpr hv')]
  rw [e]
  refine ⟨by omega, ?_, ?_⟩
  · have : v < 2 ^ (Nat.log2 v + 1) := Nat.lt_log2_self
    refine Nat.lt_of_lt_of_le this (Nat.pow_le_pow_right (by decide) (by omega))
  · intro n hn hlt
    by_cases h0 : v = 0
    · subst h0; simp; omega
    · have := (Nat.log2_lt h0).mpr hlt
      omega

/-- The word written by the encoder. -/
theorem encWord {w v : Nat} (hw : w = 4 ∨ w = 8) (hv : v < 2 ^ (7 * w)) :
    let n := encodingLength w v
    1 ≤ n ∧ n ≤ w ∧ v < 2 ^ (7 * n) ∧
    (((v <<< 1) + 1) <<< (n - 1)) % 2 ^ (8 * w) = (2 * v + 1) * 2 ^ (n - 1) ∧
    (2 * v + 1) * 2 ^ (n - 1) < 2 ^ (8 * n) := by
  intro n
  have hv8 : v < 2 ^ (8 * w) := Nat.lt_of_lt_of_le hv (Nat.pow_le_pow_right (by decide) (by omega))
  have hv63 : v < 2 ^ 63 := Nat.lt_of_lt_of_le hv (Nat.pow_le_pow_right (by decide) (by omega))
  obtain ⟨h1, h2, h3⟩ := encodingLength_spec hw hv8 hv63
  have hn : n ≤ w := h3 w (by omega) hv
  have hlt : (2 * v + 1) * 2 ^ (n - 1) < 2 ^ (8 * n) := by
    have e : 8 * n = (7 * n + 1) + (n - 1) := by omega
    rw [e, Nat.pow_add]
    refine Nat.mul_lt_mul_of_pos_right ?_ (Nat.two_pow_pos _)
    rw [Nat.pow_succ]
    have : v < 2 ^ (7 * n) := h2
    omega
  refine ⟨h1, hn, h2, ?_, hlt⟩
  rw [Nat.shiftLeft_eq, Nat.shiftLeft_eq, Nat.pow_one, Nat.mul_comm v 2]
  exact Nat.mod_eq_of_lt (Nat.lt_of_lt_of_le hlt (Nat.pow_le_pow_right (by decide) (by omega)))

theorem encode_small {w v : Nat} (hw : w = 4 ∨ w = 8) (hv : v < 2 ^ (7 * w)) :
    encode w v = leBytes (encodingLength w v) ((2 * v + 1) * 2 ^ (encodingLength w v - 1)) := by
  obtain ⟨_, _, _, h4, _⟩ := encWord hw hv
  unfold encode
  rw [if_neg (by omega)]
  simp only
  rw [h4]

theorem length_encode_small {w v : Nat} (hw : w = 4 ∨ w = 8) (hv : v < 2 ^ (7 * w)) :
    (encode w v).length = encodingLength w v := by
  rw [encode_small hw hv, length_leBytes]

theorem length_encode_large {w v : Nat} (hv : 2 ^ (7 * w) ≤ v) : (encode w v).length = w + 1 := by
  unfold encode
  rw [if_pos hv]
  simp [length_leBytes]

/-- Loading at least the encoded bytes gives an odd multiple of `2^(n-1)` whose low part is the word. -/
theorem fromLE_enc {n v k : Nat} {rest : List UInt8} (h1 : 1 ≤ n) (hk : n ≤ k)
    (hw : (2 * v + 1) * 2 ^ (n - 1) < 2 ^ (8 * n)) :
    ∃ j, fromLE (((leBytes n ((2 * v + 1) * 2 ^ (n - 1))) ++ rest).take k)
      = (2 * (v + 2 ^ (7 * n) * j) + 1) * 2 ^ (n - 1) := by
  rw [List.take_append, List.take_of_length_le (by rw [length_leBytes]; exact hk), fromLE_append,
    fromLE_leBytes, length_leBytes, pow256, Nat.mod_eq_of_lt hw]
  generalize fromLE (List.take (k - n) rest) = j
  refine ⟨j, ?_⟩
  have e : 8 * n = (7 * n + 1) + (n - 1) := by omega
  have e2 : (2:Nat) ^ (8 * n) * j = (2 * (2 ^ (7 * n) * j)) * 2 ^ (n - 1) := by
    rw [e, Nat.pow_add, Nat.pow_succ]
    generalize (2:Nat) ^ (7 * n) = x
    generalize (2:Nat) ^ (n - 1) = y
    rw [Nat.mul_comm x 2, Nat.mul_assoc, Nat.mul_assoc, Nat.mul_comm y j]
    simp only [Nat.mul_assoc]
  rw [e2, ← Nat.add_mul]
  congr 1
  omega

/-- Masking and shifting recovers the value. -/
theorem mask_shift {n v j : Nat} (h1 : 1 ≤ n) (hv : v < 2 ^ (7 * n)) :
    (((2 * (v + 2 ^ (7 * n) * j) + 1) * 2 ^ (n - 1)) &&& (2 ^ (n * 8) - 1)) >>> n = v := by
  rw [Nat.and_two_pow_sub_one_eq_mod, Nat.shiftRight_eq_div_pow]
  have e : n * 8 = (n - 1) + (7 * n + 1) := by omega
  rw [e, Nat.pow_add, Nat.mul_comm (2 * (v + 2 ^ (7 * n) * j) + 1), Nat.mul_mod_mul_left]
  have e3 : (2 * (v + 2 ^ (7 * n) * j) + 1) % 2 ^ (7 * n + 1) = 2 * v + 1 := by
    rw [Nat.pow_succ]
    have : 2 * (v + 2 ^ (7 * n) * j) + 1 = (2 * v + 1) + (2 ^ (7 * n) * 2) * j := by
      rw [Nat.mul_add]
      generalize (2:Nat) ^ (7 * n) = x
      rw [Nat.mul_comm x 2, Nat.mul_assoc]; omega
    rw [this, Nat.add_mul_mod_self_left]
    exact Nat.mod_eq_of_lt (by omega)
  rw [e3]
  have e4 : n = (n - 1) + 1 := by omega
  rw [show (2:Nat) ^ n = 2 ^ (n - 1) * 2 by rw [← Nat.pow_succ]; congr 1]
  rw [Nat.mul_div_mul_left _ _ (Nat.two_pow_pos _)]
  omega

theorem mask_zero {w : Nat} (_ : 0 < w) : mask (some 0) w w = some (2 ^ (w * 8) - 1) := by
  have hp := Nat.two_pow_pos (w * 8)
  unfold mask
  rw [if_neg (Nat.lt_irrefl _), if_pos rfl, Option.map_some, Nat.mul_comm 8 w,
    Nat.mod_eq_of_lt (by omega)]
  simp

/-- The low byte of the loaded word is not the long-form header. -/
theorem not_header {w n a : Nat} (hw : w = 4 ∨ w = 8) (h1 : 1 ≤ n) (hn : n ≤ w) :
    ((2 * a + 1) * 2 ^ (n - 1)) &&& 0xFF ≠ (1 <<< w) &&& 0xFF := by
  rw [show (0xFF : Nat) = 2 ^ 8 - 1 by decide, Nat.and_two_pow_sub_one_eq_mod,
    Nat.and_two_pow_sub_one_eq_mod]
  have hn8 : n = 1 ∨ n = 2 ∨ n = 3 ∨ n = 4 ∨ n = 5 ∨ n = 6 ∨ n = 7 ∨ n = 8 := by omega
  rcases hw with rfl | rfl <;> rcases hn8 with rfl | rfl | rfl | rfl | rfl | rfl | rfl | rfl <;>
    simp [Nat.shiftLeft_eq] <;> omega

theorem parseT_small {w v : Nat} (hw : w = 4 ∨ w = 8) (hv : v < 2 ^ (7 * w)) (over : Option Nat)
    (rest : List UInt8) (hlen : w ≤ (encode w v ++ rest).length)
    (hover : encodingLength w v = w → over = some 0) :
    parseT over w (encode w v ++ rest) = .ok v (encodingLength w v) := by
  obtain ⟨h1, hn, h2, _, hlt⟩ := encWord hw hv
  obtain ⟨j, hj⟩ := fromLE_enc (rest := rest) (k := w) h1 hn hlt
  unfold parseT load
  rw [if_pos hlen, encode_small hw hv, hj]
  simp only
  rw [if_neg (not_header hw h1 hn), countrZero_spec _ _ _ (by omega)]
  have e : encodingLength w v - 1 + 1 = encodingLength w v := by omega
  rw [e]
  have hmask : mask over w (encodingLength w v) = some (2 ^ (encodingLength w v * 8) - 1) := by
    by_cases hlt' : encodingLength w v < w
    · unfold mask; rw [if_pos hlt']
    · have he : encodingLength w v = w := by omega
      rw [hover he, he]
      exact mask_zero (by omega)
  rw [hmask]
  simp only [mask_shift h1 h2]

theorem parseT_large {w v : Nat} (_hw : w = 4 ∨ w = 8) (hv : 2 ^ (7 * w) ≤ v) (hv' : v < 2 ^ (8 * w))
    (over : Option Nat) (rest : List UInt8) :
    parseT over w (encode w v ++ rest) = .ok v (w + 1) := by
  unfold encode parseT load
  rw [if_pos hv]
  have hl : (leBytes w v).length = w := length_leBytes w v
  rw [if_pos (by simp [hl]; omega)]
  have hld : fromLE (List.take w ((leBytes w v) ++ rest)) = v := by
    rw [List.take_append_of_le_length (by omega), List.take_of_length_le (by omega), fromLE_leBytes,
      pow256, Nat.mod_eq_of_lt hv']
  have hhdr : fromLE (List.take w (UInt8.ofNat (1 <<< w &&& 255) :: leBytes w v ++ rest)) &&& 255
      = 1 <<< w &&& 255 := by
    obtain ⟨w', rfl⟩ : ∃ w', w = w' + 1 := ⟨w - 1, by omega⟩
    simp only [List.cons_append, List.take_succ_cons, fromLE]
    rw [show (255 : Nat) = 2 ^ 8 - 1 by decide, Nat.and_two_pow_sub_one_eq_mod,
      Nat.and_two_pow_sub_one_eq_mod, UInt8.toNat_ofNat']
    omega
  simp only
  rw [if_pos hhdr]
  simp only [List.cons_append, List.drop_one, List.tail_cons]
  rw [if_pos (by simp [hl])]
  simp only [hld]

end Verif.Flit
