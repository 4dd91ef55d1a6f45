import Verif.Human.Lemmas
import Verif.Url.Lemmas
namespace Verif.Human
open Verif.Text Spec

/-! ## The accepted language -/

theorem unit_byte (c : Byte) (r : Str) (k : Nat) : unitOf (c :: r) = some k ↔ c ∈ letter k := by
  have h : ∀ c : Byte, ∀ k : Fin 7, (unitOf [c] = some k.1 ↔ c ∈ letter k.1) :=
    fun c k => Verif.Url.all_bytes (P := fun c => ∀ k : Fin 7, (unitOf [c] = some k.1 ↔ c ∈ letter k.1)) (by decide +kernel) c k
  have e : unitOf (c :: r) = unitOf [c] := rfl
  rw [e]
  by_cases hk : k < 7
  · exact h c ⟨k, hk⟩
  · constructor
    · intro h
      unfold unitOf at h
      repeat' (split at h; · (simp at h; omega))
      simp at h
    · intro h
      unfold letter at h
      rw [List.getD_eq_getElem?_getD, List.getElem?_eq_none (by simp; omega)] at h
      simp at h

theorem suffix_rest (c : Byte) (r : Str) : suffixOk (c :: r) = true ↔
    ∃ i b, (i = [] ∨ i = lit "i") ∧ (b = [] ∨ b = lit "B" ∨ b = lit "b") ∧ r = i ++ b := by
  have li : lit "i" = [105] := by decide
  have lB : lit "B" = [66] := by decide
  have lb : lit "b" = [98] := by decide
  rw [li, lB, lb]
  unfold suffixOk
  constructor
  · intro h
    dsimp only at h
    match r, h with
    | [], _ => exact ⟨[], [], by simp, by simp, by simp⟩
    | [a], h =>
      by_cases h1 : a = 105
      · subst h1; exact ⟨[105], [], by simp, by simp, by simp⟩
      · by_cases h2 : a = 66
        · subst h2; exact ⟨[], [66], by simp, by simp, by simp⟩
        · by_cases h3 : a = 98
          · subst h3; exact ⟨[], [98], by simp, by simp, by simp⟩
          · simp [h1, h2, h3] at h
    | a :: b :: r, h =>
      by_cases h1 : a = 105
      · subst h1
        simp at h
        by_cases h2 : b = 66
        · subst h2; simp at h; subst h; exact ⟨[105], [66], by simp, by simp, by simp⟩
        · by_cases h3 : b = 98
          · subst h3; simp at h; subst h; exact ⟨[105], [98], by simp, by simp, by simp⟩
          · simp [h2, h3] at h
      · simp [h1] at h
        split at h
        · simp at h
        · simp at h
  · rintro ⟨i, b, hi, hb, rfl⟩
    rcases hi with rfl | rfl <;> rcases hb with rfl | rfl | rfl <;> rfl

theorem suffix_iff (s : Str) (k : Nat) : (unitOf s = some k ∧ suffixOk s = true) ↔ Suffix s k := by
  unfold Suffix
  cases s with
  | nil => simp [unitOf, suffixOk]; exact eq_comm
  | cons c r =>
    rw [unit_byte, suffix_rest]
    constructor
    · rintro ⟨h, i, b, hi, hb, rfl⟩
      exact Or.inr ⟨c, h, i, b, hi, hb, rfl⟩
    · rintro (⟨h, _⟩ | ⟨c', h, i, b, hi, hb, e⟩)
      · cases h
      · injection e with e1 e2
        subst e1
        exact ⟨h, i, b, hi, hb, e2⟩

/-- How a string is read: an optional minus sign, then a number that `strtod` converts to `units`, then a suffix for `1024^k`. -/
structure Reads (strtod : Strtod) (s : Str) (neg : Bool) (units k : Nat) : Prop where
  text : ∃ num suf sgn, s = (if neg then lit "-" else []) ++ (num ++ suf) ∧ (neg = false → s.head? ≠ some 45) ∧
    strtod (num ++ suf) = some (num.length, .fin sgn units) ∧ (sgn = true → units = 0) ∧ Suffix suf k

/-- `strtod` does not claim to have read more than it was given. -/
def WithinInput (strtod : Strtod) : Prop := ∀ s len d, strtod s = some (len, d) → len ≤ s.length

theorem takeWhile_no_nul {s : Str} (h : (0 : Byte) ∉ s) : s.takeWhile (· != 0) = s := by
  induction s with
  | nil => rfl
  | cons a s ih =>
    simp only [List.mem_cons, not_or] at h
    rw [List.takeWhile_cons, if_pos (by simpa using fun e => h.1 e.symm), ih h.2]

/-- The rounded value the code computes from a number of units. -/
def rounded (E units : Nat) : Nat := rne (units + one E / 2) / one E

theorem one_pos (E : Nat) : 0 < one E := Nat.pow_pos (by omega)

theorem finish_fin (E : Nat) (neg sgn : Bool) (n : Nat) (hs : sgn = true → n = 0) (hn : n / one E < 2 ^ 63) :
    finish E neg (.fin sgn n) = if rounded E n < 2 ^ 63 then some (some (if neg then -(rounded E n : Int) else rounded E n)) else none := by
  unfold finish toInt64 rounded
  generalize one E = o at *
  cases sgn with
  | false =>
    dsimp only
    rw [if_pos hn]
    dsimp only
    rw [if_neg (by omega), if_neg (by simp)]
    split <;> simp_all
  | true =>
    have := hs rfl
    subst this
    dsimp only
    rw [if_pos (by simp)]
    dsimp only
    rw [if_neg (by simp), if_neg (by simp)]
    split <;> simp_all

theorem scaleBy_fin (E : Nat) (k : Nat) (sgn : Bool) (n : Nat) (h : n * 1024 ^ k / one E < 2 ^ 63) : scaleBy E k (.fin sgn n) = .fin sgn (n * 1024 ^ k) := by
  have e : (1024 : Nat) ^ k = 2 ^ (10 * k) := by rw [Nat.pow_mul]
  unfold scaleBy
  rw [e] at h ⊢
  dsimp only
  rw [if_pos]
  have h' := (Nat.div_lt_iff_lt_mul (one_pos E)).1 h
  exact Nat.lt_of_lt_of_le h' (Nat.mul_le_mul_right _ (Nat.pow_le_pow_right (by omega) (by omega)))

theorem dbl63 (E : Nat) (hE1 : 1 ≤ E) (m : Nat) (hd : IsDbl m) (h : m / one E < 2 ^ 63) : rounded E m < 2 ^ 63 := by
  have h' := (Nat.div_lt_iff_lt_mul (one_pos E)).1 h
  unfold rounded
  rw [Nat.div_lt_iff_lt_mul (one_pos E)]
  have hE : one E = 2 ^ E := rfl
  by_cases h52 : m < 2 ^ (E + 52)
  · have := (half_near E m (by omega) h52).1
    rw [← hE] at this
    rw [Nat.pow_add, ← hE] at h52
    have hp := one_pos E
    generalize rne (m + one E / 2) = x at *
    generalize one E = o at *
    omega
  · by_cases h53 : m < 2 ^ (E + 53)
    · have hp := one_pos E
      have hlt : m + one E / 2 < 2 ^ (E + 54) := by
        rw [Nat.pow_add, ← hE] at h53 ⊢
        generalize one E = o at *
        omega
      have hu := Nat.le_of_dvd (Nat.pow_pos (by omega)) (ulp_le hlt)
      have hn := (rne_near (m + one E / 2)).1
      rw [show E + 54 - 53 = E + 1 by omega, Nat.pow_add, ← hE] at hu
      rw [Nat.pow_add, ← hE] at h53
      generalize rne (m + one E / 2) = x at *
      generalize ulp (m + one E / 2) = y at *
      generalize one E = o at *
      omega
    · have := half_big E m (by omega) (by omega) hd
      rw [← hE] at this
      rw [this]; exact h'

/-- C37: a string that is a number followed by a unit is accepted, and the value is the number times the unit, rounded, if it fits. -/
theorem C37_accepts (E : Nat) (hE1 : 1 ≤ E) (strtod : Strtod) (s : Str) (neg : Bool) (units k : Nat) (h0 : (0 : Byte) ∉ s) (h : Reads strtod s neg units k)
    (hne : s ≠ []) (hd : IsDbl (units * 1024 ^ k)) (hfit : units * 1024 ^ k / one E < 2 ^ 63) :
    parseBytes E strtod s [] = some (some (if neg then -(rounded E (units * 1024 ^ k) : Int) else rounded E (units * 1024 ^ k))) := by
  obtain ⟨num, suf, sgn, hs, hneg, hst, hz, hsuf⟩ := h.text
  have hsuf' := (suffix_iff suf k).2 hsuf
  unfold parseBytes
  rw [if_neg hne, List.append_nil, takeWhile_no_nul h0]
  have e1 : (s.head? == some 45) = neg := by
    cases neg with
    | true => rw [hs]; rfl
    | false => simpa using hneg rfl
  have e2 : (if neg = true then s.tail else s) = num ++ suf := by
    cases neg with
    | true => rw [hs]; rfl
    | false => rw [hs]; rfl
  simp only [e1, e2, hst, List.drop_left, hsuf'.1, hsuf'.2, if_true]
  rw [scaleBy_fin E k sgn units hfit, finish_fin E neg sgn _ (by intro e; rw [hz e]; simp) hfit, if_pos (dbl63 E hE1 _ hd hfit)]

/-- C37: nothing else is accepted. -/
theorem C37_accepts_only (E : Nat) (strtod : Strtod) (hw : WithinInput strtod) (s : Str) (v : Int) (h0 : (0 : Byte) ∉ s)
    (h : parseBytes E strtod s [] = some (some v)) : ∃ neg units k, Reads strtod s neg units k ∧ units * 1024 ^ k / one E < 2 ^ 63 := by
  unfold parseBytes at h
  by_cases hne : s = []
  · simp [hne] at h
  rw [if_neg hne, List.append_nil, takeWhile_no_nul h0] at h
  dsimp only at h
  generalize hneg : (s.head? == some 45) = neg at h
  generalize hc : (if neg = true then s.tail else s) = c at h
  cases hst : strtod c with
  | none => simp [hst] at h
  | some p =>
    obtain ⟨len, d⟩ := p
    have hl := hw c len d hst
    simp only [hst] at h
    cases hu : unitOf (c.drop len) with
    | none => simp [hu] at h
    | some k =>
      simp only [hu] at h
      by_cases hso : suffixOk (c.drop len) = true
      · rw [if_pos hso] at h
        have hsuf := (suffix_iff _ k).1 ⟨hu, hso⟩
        have hs : s = (if neg then lit "-" else []) ++ c := by
          cases neg with
          | false => simpa using hc
          | true =>
            simp only [if_true] at hc ⊢
            cases s with
            | nil => exact absurd rfl hne
            | cons a s => simp at hneg; simp at hc; subst hneg; subst hc; rfl
        cases d with
        | inf b => simp [scaleBy, finish, toInt64] at h
        | nan => simp [scaleBy, finish, toInt64] at h
        | fin sgn units =>
          unfold scaleBy at h
          have e : (1024 : Nat) ^ k = 2 ^ (10 * k) := by rw [Nat.pow_mul]
          rw [← e] at h
          dsimp only at h
          split at h
          · have hz : sgn = true → units = 0 := by
              intro hb
              subst hb
              unfold finish at h
              have hp : 0 < 1024 ^ k := Nat.pow_pos (by omega)
              cases ht : toInt64 E (.fin true (units * 1024 ^ k)) with
              | none => simp [ht] at h
              | some i =>
                simp only [ht] at h
                split at h
                · simp at h
                · split at h
                  · simp at h
                  · rename_i hx
                    simp at hx
                    exact (Nat.mul_eq_zero.1 hx).resolve_right (Nat.ne_of_gt hp)
            refine ⟨neg, units, k, ⟨c.take len, c.drop len, sgn, ?_, ?_, ?_, hz, hsuf⟩, ?_⟩
            · rw [List.take_append_drop]; exact hs
            · intro hb; subst hb; simpa using hneg
            · rw [List.take_append_drop, hst, List.length_take, Nat.min_eq_left hl]
            · unfold finish at h
              cases sgn with
              | true => rw [hz rfl]; simp
              | false =>
                unfold toInt64 at h
                dsimp only at h
                split at h
                · simp at h
                · rename_i hx
                  split at hx
                  · assumption
                  · simp at hx
          · simp [finish, toInt64] at h
      · rw [if_neg hso] at h; simp at h

/-! ## The value -/

/-- C37: whole numbers below 2^52 come out exactly; so do the even ones below 2^53 and every double from there on. -/
theorem C37_exact_partial (E : Nat) (hE1 : 1 ≤ E) (n : Nat) (hd : IsDbl (n * one E)) (h : n < 2 ^ 52 ∨ n % 2 = 0 ∨ 2 ^ 53 ≤ n) : rounded E (n * one E) = n := by
  unfold rounded
  have hE : one E = 2 ^ E := rfl
  have hp := one_pos E
  have fin : ∀ r, r < one E → (n * one E + r) / one E = n := by
    intro r hr
    rw [Nat.mul_comm, Nat.mul_add_div hp, Nat.div_eq_of_lt hr]; rfl
  by_cases h1 : n < 2 ^ 52
  · have := half_small E n (by omega) h1
    rw [← hE] at this
    rw [this]
    exact fin _ (by generalize one E = o at *; omega)
  · by_cases h2 : n < 2 ^ 53
    · have := half_mid E n (by omega) (by omega) h2
      rw [← hE] at this
      rw [this, show n % 2 = 0 by omega]
      exact Nat.mul_div_cancel _ hp
    · have hb : 2 ^ (E + 53) ≤ n * one E := by
        rw [Nat.pow_add, ← hE, Nat.mul_comm]; exact Nat.mul_le_mul_right _ (by omega)
      have := half_big E (n * one E) (by omega) hb hd
      rw [← hE] at this
      rw [this]; exact Nat.mul_div_cancel _ hp

/-- C37: below 2^52 a value that is not whole is off by less than one E. -/
theorem C37_near (E : Nat) (hE1 : 1 ≤ E) (m : Nat) (h : m < 2 ^ 52 * one E) : rounded E m * one E < m + 2 * one E ∧ m < rounded E m * one E + one E ∧
    (rounded E m = m / one E ∨ rounded E m = m / one E + 1) := by
  have hE : one E = 2 ^ E := rfl
  have hp := one_pos E
  have h52 : m < 2 ^ (E + 52) := by rw [Nat.pow_add, ← hE, Nat.mul_comm]; exact h
  have hn := half_near E m (by omega) h52
  rw [← hE] at hn
  unfold rounded
  generalize rne (m + one E / 2) = x at *
  have e1 := Nat.div_add_mod m (one E)
  have e2 := Nat.div_add_mod x (one E)
  have l1 := Nat.mod_lt m hp
  have l2 := Nat.mod_lt x hp
  have hx : m ≤ x ∧ x ≤ m + one E := by generalize one E = o at *; omega
  have g1 : m / one E ≤ x / one E := Nat.div_le_div_right hx.1
  have g2 : x / one E ≤ (m + one E) / one E := Nat.div_le_div_right hx.2
  rw [Nat.add_div_right _ hp] at g2
  rw [Nat.mul_comm (x / one E)]
  refine ⟨?_, ?_, by omega⟩
  · generalize one E = o at *; generalize o * (x / o) = a at *; generalize o * (m / o) = b at *; omega
  · generalize one E = o at *; generalize o * (x / o) = a at *; generalize o * (m / o) = b at *; omega

/-- C37 is false as stated: an odd whole number from 2^52 to 2^53 comes out one E too large. -/
theorem C37_off_by_one (E : Nat) (hE1 : 1 ≤ E) (n : Nat) (h1 : 2 ^ 52 ≤ n) (h2 : n < 2 ^ 53) (ho : n % 2 = 1) : rounded E (n * one E) = n + 1 := by
  unfold rounded
  have hE : one E = 2 ^ E := rfl
  have := half_mid E n (by omega) h1 h2
  rw [← hE] at this
  rw [this, ho, Nat.mul_div_cancel _ (one_pos E)]

/-- C37 is false as stated: a value of 2^63 or more (or an infinity or a NaN) is not rejected, the conversion is undefined. -/
theorem C37_overflow_undefined (E : Nat) (neg : Bool) (d : Dbl) (h : ∀ n, d = .fin false n → 2 ^ 63 ≤ n / one E) (hp : ∀ n, d ≠ .fin true n) :
    finish E neg d = none := by
  unfold finish
  cases d with
  | inf b => rfl
  | nan => rfl
  | fin sgn n =>
    cases sgn with
    | true => exact absurd rfl (hp n)
    | false =>
      have := h n rfl
      simp only [toInt64]
      rw [if_neg (by omega)]

/-! ## Plain decimal numbers: an instance of `strtod` -/

/-- Digits at the front of a string. -/
def digits (s : Str) : Str := s.takeWhile (fun c => 48 ≤ c && c ≤ 57)

/-- The value of a digit string. -/
def decVal (s : Str) : Nat := s.foldl (fun a c => 10 * a + (c.toNat - 48)) 0

/-- `strtod` on strings that start with plain digits (no fraction, no exponent), as far as it is needed below. -/
def decStrtod : Strtod := fun s => if digits s = [] then none else some ((digits s).length, .fin false (rne (decVal (digits s) * one 1074)))

theorem decStrtod_within : WithinInput decStrtod := by
  intro s len d h
  unfold decStrtod at h
  split at h
  · simp at h
  · simp at h
    rw [← h.1]
    exact (List.takeWhile_prefix _).length_le

/-- The theorems apply to a concrete string: "-3KiB". -/
example : parseBytes 1074 decStrtod (lit "-3KiB") [] = some (some (-3072)) := by decide +kernel
example : Reads decStrtod (lit "-3KiB") true (3 * one 1074) 1 :=
  ⟨lit "3", lit "KiB", false, by decide, by simp, by decide +kernel, by simp, Or.inr ⟨75, by decide, lit "i", lit "B", by decide, by decide, by decide⟩⟩

/-- C37 is false as stated: the text after the view is read too. The view "1" in front of "K" is 1024. -/
theorem C37_reads_past_view : parseBytes 1074 decStrtod (lit "1") (lit "K") = some (some 1024) ∧ parseBytes 1074 decStrtod (lit "1") [] = some (some 1) := by
  decide +kernel

/-- C37: "1BiB" is accepted, though `B` takes no `i`. -/
theorem C37_odd_suffix : parseBytes 1074 decStrtod (lit "1BiB") [] = some (some 1) := by decide +kernel

/-- C37: "8E" is 2^63, which does not fit: undefined. "4503599627370497" is off by one. -/
theorem C37_counterexamples : parseBytes 1074 decStrtod (lit "8E") [] = none ∧
    parseBytes 1074 decStrtod (lit "4503599627370497") [] = some (some 4503599627370498) := by decide +kernel

/-! ## Printing -/

theorem pick_spec : ∀ (fuel n unit : Nat), 1024 ≤ n → n < 1024 ^ (8 - unit) → unit < 7 → 8 ≤ fuel + unit →
    ∃ k, pickUnit fuel n unit = some (n / 1024 ^ k, unit + k) ∧ unit + k < 7 ∧ 1024 ≤ n / 1024 ^ k ∧ n / 1024 ^ k < 1024 * 1024 := by
  intro fuel
  induction fuel with
  | zero => intros; omega
  | succ fuel ih =>
    intro n unit h1 h2 h3 h4
    unfold pickUnit
    by_cases hn : n ≥ 1024 * 1024
    · rw [if_pos hn]
      have hu : unit < 6 := by
        apply Classical.byContradiction
        intro hc
        have : unit = 6 := by omega
        subst this
        simp at h2
        omega
      rw [if_pos (by omega)]
      have hlt : n / 1024 < 1024 ^ (8 - (unit + 1)) := by
        rw [Nat.div_lt_iff_lt_mul (by omega), ← Nat.pow_succ]
        rw [show (8 - (unit + 1)).succ = 8 - unit by omega]; exact h2
      obtain ⟨k, e1, e2, e3, e4⟩ := ih (n / 1024) (unit + 1) (by omega) hlt (by omega) (by omega)
      refine ⟨k + 1, ?_, by omega, ?_, ?_⟩
      · rw [e1, Nat.div_div_eq_div_mul, Nat.pow_succ, Nat.mul_comm 1024]
        congr 2; omega
      · rw [Nat.pow_succ, Nat.mul_comm, ← Nat.div_div_eq_div_mul]; exact e3
      · rw [Nat.pow_succ, Nat.mul_comm, ← Nat.div_div_eq_div_mul]; exact e4
    · rw [if_neg hn]
      exact ⟨0, by simp, by omega, by simpa using h1, by simpa using hn⟩

theorem fixed_near (m dec : Nat) : 2 * (fixed m dec * 1024) ≤ 2 * (m * 10 ^ dec) + 1024 ∧ 2 * (m * 10 ^ dec) ≤ 2 * (fixed m dec * 1024) + 1024 := by
  unfold fixed
  generalize m * 10 ^ dec = x
  dsimp only
  split
  · omega
  · split
    · omega
    · split <;> omega

theorem show_bounds (u q r n x t : Nat) (e : u * q + r = n) (hm : r < u)
    (f : 2 * (x * 1024) ≤ 2 * (q * t) + 1024 ∧ 2 * (q * t) ≤ 2 * (x * 1024) + 1024) :
    2 * (x * (u * 1024)) ≤ 2 * (n * t) + u * 1024 ∧ (0 < t → 2 * (n * t) < 2 * (x * (u * 1024)) + u * 1024 + 2 * (t * u)) := by
  subst e
  have f1 := Nat.mul_le_mul_left u f.1
  have f2 := Nat.mul_le_mul_left u f.2
  have e1 : (u * q + r) * t = u * (q * t) + r * t := by rw [Nat.add_mul, Nat.mul_assoc]
  have e2 : u * (2 * (x * 1024)) = 2 * (x * (u * 1024)) := by grind
  have e3 : u * (2 * (q * t) + 1024) = 2 * (u * (q * t)) + u * 1024 := by grind
  have e4 : u * (2 * (q * t)) = 2 * (u * (q * t)) := by grind
  have e5 : u * (2 * (x * 1024) + 1024) = 2 * (x * (u * 1024)) + u * 1024 := by grind
  rw [e1]
  rw [e2, e3] at f1
  rw [e4, e5] at f2
  refine ⟨by omega, fun ht => ?_⟩
  have h3 : r * t < t * u := by rw [Nat.mul_comm t]; exact Nat.mul_lt_mul_of_pos_right hm ht
  omega

/-- C37, printing: the program's CHECK never fails, the sign is right, and the printed number times its unit is the value up to
half a unit in the last printed digit plus what the repeated division by 1024 dropped. -/
theorem C37_show (v : Int) (h1 : -2 ^ 63 < v) (h2 : v < 2 ^ 63) :
    ∃ r, showBytes v = some r ∧ (r.neg = true ↔ v < 0) ∧
      ((v.natAbs < 1024 ∧ r.unit = 0 ∧ r.dec = 0 ∧ r.digits = v.natAbs) ∨
       (1 ≤ r.unit ∧ r.unit ≤ 6 ∧ (r.dec = 1 ∨ r.dec = 2) ∧
        10 ^ r.dec ≤ r.digits ∧ r.digits ≤ 1024 * 10 ^ r.dec ∧
        2 * (r.digits * 1024 ^ r.unit) ≤ 2 * (v.natAbs * 10 ^ r.dec) + 1024 ^ r.unit ∧
        2 * (v.natAbs * 10 ^ r.dec) < 2 * (r.digits * 1024 ^ r.unit) + 1024 ^ r.unit + 2 * (10 ^ r.dec * 1024 ^ (r.unit - 1)))) := by
  unfold showBytes
  rw [if_neg (by omega)]
  dsimp only
  have hn : v.natAbs < 2 ^ 63 := by omega
  have hneg : decide (v < 0) = true ↔ v < 0 := by simp
  generalize v.natAbs = n at *
  by_cases hs : n < 1024
  · rw [if_pos hs]
    exact ⟨_, rfl, hneg, Or.inl ⟨hs, rfl, rfl, rfl⟩⟩
  · rw [if_neg hs]
    obtain ⟨k, e1, e2, e3, e4⟩ := pick_spec 8 n 0 (by omega) (by simp; omega) (by omega) (by omega)
    rw [e1]
    have hk : k ≤ 5 := by
      apply Classical.byContradiction
      intro hc
      have : k = 6 := by omega
      subst this
      have : n / 1024 ^ 6 < 1024 := by
        rw [Nat.div_lt_iff_lt_mul (by simp)]; simp; omega
      omega
    dsimp only
    simp only [Nat.zero_add]
    generalize hdec : (if k = 0 then 1 else 2) = dec
    have hdec' : dec = 1 ∨ dec = 2 := by rw [← hdec]; split <;> simp
    refine ⟨_, rfl, hneg, Or.inr ⟨by dsimp only; omega, by dsimp only; omega, hdec', ?_, ?_, ?_, ?_⟩⟩
    · have := (fixed_near (n / 1024 ^ k) dec).2
      dsimp only
      rcases hdec' with rfl | rfl <;> omega
    · have := (fixed_near (n / 1024 ^ k) dec).1
      dsimp only
      rcases hdec' with rfl | rfl <;> omega
    all_goals
      have f := fixed_near (n / 1024 ^ k) dec
      have hp : 0 < 1024 ^ k := Nat.pow_pos (by omega)
      have e := Nat.div_add_mod n (1024 ^ k)
      have hm := Nat.mod_lt n hp
      dsimp only
      try rw [show k + 1 - 1 = k by omega]
      have key := show_bounds _ _ _ _ _ _ e hm f
      rw [Nat.pow_succ]
      have hu := key.2 (Nat.pow_pos (by omega))
      omega

/-- C37: printing and parsing again does not give the value back: 1025 prints as 1.0KiB. -/
theorem C37_no_round_trip : showBytes 1025 = some ⟨false, 10, 1, 1⟩ ∧ showBytes 1024 = some ⟨false, 10, 1, 1⟩ := by decide

/-- The smallest value is shown as minus 8E. -/
theorem C37_show_min : showBytes (-2 ^ 63) = some ⟨true, 8, 0, 6⟩ := by decide

end Verif.Human
