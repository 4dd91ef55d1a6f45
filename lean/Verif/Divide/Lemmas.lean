import Verif.Divide.Model
import Verif.Divide.Spec
import Mathlib.Tactic.Ring
import Mathlib.Tactic.Linarith
import Mathlib.Data.Nat.ModEq
/-! Arithmetic for C85. -/
namespace Verif.Divide

/-- A multiplier that is a little too large still gives the quotient. -/
theorem magic_div {n d P M e : Nat} (hd : 0 < d) (hM : M * d = P + e) (hne : n * e < P) : M * n / P = n / d := by
  have hP : 0 < P := by omega
  have hq : n = d * (n / d) + n % d := (Nat.div_add_mod n d).symm
  have hr : n % d < d := Nat.mod_lt _ hd
  generalize n / d = q at *
  generalize n % d = r at *
  have hlo : q * P ≤ M * n := by
    have : q * P * d ≤ M * n * d := by
      have h1 : M * n * d = (P + e) * n := by rw [← hM]; ring
      rw [h1, hq]
      nlinarith [Nat.zero_le (P * r), Nat.zero_le (e * (d * q + r))]
    exact Nat.le_of_mul_le_mul_right this hd
  have hhi : M * n < (q + 1) * P := by
    have : M * n * d < (q + 1) * P * d := by
      have h1 : M * n * d = (P + e) * n := by rw [← hM]; ring
      have h2 : (P + e) * n = P * n + n * e := by ring
      have h3 : P * n + P ≤ (q + 1) * P * d := by
        have : n + 1 ≤ (q + 1) * d := by nlinarith
        calc P * n + P = (n + 1) * P := by ring
          _ ≤ (q + 1) * d * P := Nat.mul_le_mul_right _ this
          _ = (q + 1) * P * d := by ring
      omega
    exact Nat.lt_of_mul_lt_mul_right this
  have h1 : q ≤ M * n / P := (Nat.le_div_iff_mul_le hP).2 hlo
  have h2 : M * n / P < q + 1 := (Nat.div_lt_iff_lt_mul hP).2 hhi
  omega

theorem sub_mod {a b c M : Nat} (hM : 0 < M) (h : b ≤ a + c) (hl : a + c - b < M) : (a % M + c + (M - b % M)) % M = a + c - b := by
  have hb : b % M < M := Nat.mod_lt _ hM
  have key : (a % M + c + (M - b % M)) ≡ (a + c - b) [MOD M] := by
    apply Nat.ModEq.add_right_cancel' b
    have e2 : a + c - b + b = a + c := by omega
    rw [e2]
    have h1 : a % M + c + (M - b % M) + b ≡ a % M + c + (M - b % M) + b % M [MOD M] := Nat.ModEq.add_left _ (Nat.mod_modEq b M).symm
    have h2 : a % M + c + (M - b % M) + b % M = a % M + c + M := by omega
    rw [h2] at h1
    have h3 : a % M + c + M ≡ a % M + c [MOD M] := by unfold Nat.ModEq; rw [Nat.add_mod_right]
    exact h1.trans (h3.trans (Nat.ModEq.add_right _ (Nat.mod_modEq a M)))
  have := key
  unfold Nat.ModEq at this
  rw [this, Nat.mod_eq_of_lt hl]

/-- The quotient digit of the school division. -/
theorem adjust_eq {vn1 vn0 un u1 : Nat} (h1 : 2 ^ 31 ≤ vn1) (h1' : vn1 < B) (h0 : vn0 < B) (hu : un < B) (hlt : u1 < vn1 * B + vn0) :
    ∀ (n q rhat : Nat), q * vn1 + rhat = u1 → rhat < B → B ≤ rhat + n * vn1 → (u1 * B + un) / (vn1 * B + vn0) ≤ q →
      adjust vn1 vn0 un n q rhat = (u1 * B + un) / (vn1 * B + vn0) := by
  have hB : B = 4294967296 := rfl
  have hM : M64 = B * B := by decide
  have hv : 0 < vn1 * B + vn0 := by rw [hB] at *; omega
  intro n
  induction n with
  | zero => intro q rhat _ hr hf; omega
  | succ n ih =>
    intro q rhat hq hr hf hge
    -- the test tells whether `q` is too large
    have hmul : q * (vn1 * B + vn0) + B * rhat = u1 * B + q * vn0 := by rw [← hq]; ring
    have e2 : B * rhat + un < M64 := by
      rw [hM]
      have : B * rhat + B ≤ B * B := by
        calc B * rhat + B = B * (rhat + 1) := by ring
          _ ≤ B * B := Nat.mul_le_mul_left _ hr
      omega
    have htest : (q ≥ B ∨ q * vn0 % M64 > (B * rhat + un) % M64) ↔ u1 * B + un < q * (vn1 * B + vn0) := by
      constructor
      · intro h
        rcases Nat.lt_or_ge q B with hqB | hqB
        · rcases h with h | h
          · omega
          · have e1 : q * vn0 < M64 := by rw [hM]; exact Nat.mul_lt_mul'' hqB h0
            rw [Nat.mod_eq_of_lt e1, Nat.mod_eq_of_lt e2] at h
            omega
        · have : B * (vn1 * B + vn0) ≤ q * (vn1 * B + vn0) := Nat.mul_le_mul_right _ hqB
          have h3 : u1 * B + B ≤ B * (vn1 * B + vn0) := by
            calc u1 * B + B = B * (u1 + 1) := by ring
              _ ≤ B * (vn1 * B + vn0) := Nat.mul_le_mul_left _ hlt
          omega
      · intro h
        rcases Nat.lt_or_ge q B with hqB | hqB
        · right
          have e1 : q * vn0 < M64 := by rw [hM]; exact Nat.mul_lt_mul'' hqB h0
          rw [Nat.mod_eq_of_lt e1, Nat.mod_eq_of_lt e2]
          omega
        · exact Or.inl hqB
    unfold adjust
    by_cases ht : q ≥ B ∨ q * vn0 % M64 > (B * rhat + un) % M64
    · rw [if_pos ht]
      have hbig := htest.1 ht
      have hqlt : (u1 * B + un) / (vn1 * B + vn0) < q := (Nat.div_lt_iff_lt_mul hv).2 hbig
      have hq1 : (q - 1) * vn1 + (rhat + vn1) = u1 := by
        have hqp : 0 < q := Nat.lt_of_le_of_lt (Nat.zero_le _) hqlt
        have : q = (q - 1) + 1 := by omega
        rw [this] at hq
        have e : (q - 1 + 1) * vn1 = (q - 1) * vn1 + vn1 := by ring
        rw [e] at hq
        omega
      split
      · rename_i hrl
        exact ih (q - 1) (rhat + vn1) hq1 hrl (by have e : (n + 1) * vn1 = n * vn1 + vn1 := by ring
                                                  rw [e] at hf; omega) (by omega)
      · rename_i hrl
        -- the remainder digit is large: one less is small enough
        have hle : (q - 1) * (vn1 * B + vn0) ≤ u1 * B + un := by
          have e : (q - 1) * (vn1 * B + vn0) + B * (rhat + vn1) = u1 * B + (q - 1) * vn0 := by rw [← hq1]; ring
          have hqB : q - 1 < B := by
            by_contra hc
            have : B * vn1 ≤ (q - 1) * vn1 := Nat.mul_le_mul_right _ (by omega)
            have e2 : vn1 * B = B * vn1 := Nat.mul_comm _ _
            omega
          have h5 : (q - 1) * vn0 ≤ B * B := Nat.mul_le_mul (by omega) (by omega)
          have h6 : B * B ≤ B * (rhat + vn1) := Nat.mul_le_mul_left _ (by omega)
          omega
        have := (Nat.le_div_iff_mul_le hv).2 hle
        omega
    · rw [if_neg ht]
      have hsm : q * (vn1 * B + vn0) ≤ u1 * B + un := by
        have := mt htest.2 ht
        omega
      have := (Nat.le_div_iff_mul_le hv).2 hsm
      omega

/-- The digit as the code starts it. -/
theorem digit_eq {vn1 vn0 un u1 : Nat} (h1 : 2 ^ 31 ≤ vn1) (h1' : vn1 < B) (h0 : vn0 < B) (hu : un < B) (hlt : u1 < vn1 * B + vn0) :
    adjust vn1 vn0 un B (u1 / vn1) (u1 - u1 / vn1 * vn1) = (u1 * B + un) / (vn1 * B + vn0) := by
  have hB : B = 4294967296 := rfl
  have hpos : 0 < vn1 := by omega
  have hdm : vn1 * (u1 / vn1) + u1 % vn1 = u1 := Nat.div_add_mod _ _
  have hml : u1 % vn1 < vn1 := Nat.mod_lt _ hpos
  have hc : u1 / vn1 * vn1 = vn1 * (u1 / vn1) := Nat.mul_comm _ _
  have hrh : u1 - u1 / vn1 * vn1 = u1 % vn1 := by omega
  rw [hrh]
  refine adjust_eq h1 h1' h0 hu hlt B _ _ (by omega) (by omega) ?_ ?_
  · have : B * 1 ≤ B * vn1 := Nat.mul_le_mul_left _ hpos
    omega
  · -- the quotient by the leading digit alone is not too small
    have hv : 0 < vn1 * B + vn0 := by omega
    have : (u1 * B + un) / (vn1 * B + vn0) < u1 / vn1 + 1 := by
      rw [Nat.div_lt_iff_lt_mul hv]
      have e1 : u1 + 1 ≤ (u1 / vn1 + 1) * vn1 := by
        have : (u1 / vn1 + 1) * vn1 = u1 / vn1 * vn1 + vn1 := by ring
        omega
      calc u1 * B + un < (u1 + 1) * B := by have : (u1 + 1) * B = u1 * B + B := by ring
                                            omega
        _ ≤ (u1 / vn1 + 1) * vn1 * B := Nat.mul_le_mul_right _ e1
        _ ≤ (u1 / vn1 + 1) * (vn1 * B + vn0) := by
          have : (u1 / vn1 + 1) * (vn1 * B + vn0) = (u1 / vn1 + 1) * vn1 * B + (u1 / vn1 + 1) * vn0 := by ring
          omega
    omega

theorem long_div {X c v b : Nat} (hv : 0 < v) : (X * b + c) / v = X / v * b + (X % v * b + c) / v ∧ (X * b + c) % v = (X % v * b + c) % v := by
  have e : X * b + c = X % v * b + c + v * (X / v * b) := by
    have : X * b = (v * (X / v) + X % v) * b := by rw [Nat.div_add_mod]
    rw [this]; ring
  constructor
  · rw [e, Nat.add_mul_div_left _ _ hv]; omega
  · rw [e, Nat.add_mul_mod_self_left]

theorem log2_bounds {d : Nat} (h : d ≠ 0) : 2 ^ topBit d ≤ d ∧ d < 2 ^ (topBit d + 1) :=
  ⟨Nat.log2_self_le h, Nat.lt_log2_self⟩

/-- The portable division is the division, whatever the machine makes of the wide shift. -/
theorem divPortable_eq {junk u1 u0 v : Nat} (hv64 : v < 2 ^ 64) (hu : u1 < v) (hu0 : u0 < 2 ^ 64) :
    divPortable junk u1 u0 v = some ((u1 * 2 ^ 64 + u0) / v, (u1 * 2 ^ 64 + u0) % v) := by
  have hv0 : v ≠ 0 := by omega
  obtain ⟨hk1, hk2⟩ := log2_bounds hv0
  have hM : M64 = 2 ^ 64 := rfl
  have hBB : B * B = 2 ^ 64 := by decide
  have hk : topBit v ≤ 63 := by
    have : 2 ^ topBit v < 2 ^ 64 := by omega
    have := (Nat.pow_lt_pow_iff_right (by decide : 1 < 2)).1 this
    omega
  unfold divPortable
  rw [if_neg (by omega)]
  simp only
  generalize hs : 63 - topBit v = s
  have hs63 : s ≤ 63 := by omega
  have hpow : 2 ^ topBit v * 2 ^ s = 2 ^ 63 := by rw [← Nat.pow_add]; congr 1; omega
  have hpow1 : 2 ^ (topBit v + 1) * 2 ^ s = 2 ^ 64 := by rw [← Nat.pow_add]; congr 1; omega
  have hsp : 0 < 2 ^ s := Nat.pow_pos (by decide)
  have hvlo : 2 ^ 63 ≤ v * 2 ^ s := by rw [← hpow]; exact Nat.mul_le_mul_right _ hk1
  have hvhi : v * 2 ^ s < 2 ^ 64 := by rw [← hpow1]; exact Nat.mul_lt_mul_of_pos_right hk2 hsp
  rw [hM, Nat.mod_eq_of_lt hvhi]
  -- the shifted dividend
  have hsplit : 2 ^ s * 2 ^ (64 - s) = 2 ^ 64 := by rw [← Nat.pow_add]; congr 1; omega
  have hcarry : (if s = 0 then junk &&& 0 else u0 / 2 ^ (64 - s) &&& (2 ^ 64 - 1)) = u0 / 2 ^ (64 - s) := by
    split
    · rename_i h0
      subst h0
      rw [Nat.and_zero, Nat.sub_zero, Nat.div_eq_of_lt hu0]
    · have : u0 / 2 ^ (64 - s) < 2 ^ 64 := Nat.lt_of_le_of_lt (Nat.div_le_self _ _) hu0
      rw [Nat.and_two_pow_sub_one_eq_mod, Nat.mod_eq_of_lt this]
  have hcl : u0 / 2 ^ (64 - s) < 2 ^ s := by
    rw [Nat.div_lt_iff_lt_mul (Nat.pow_pos (by decide)), hsplit]; exact hu0
  have hu1s : u1 * 2 ^ s < 2 ^ 64 := Nat.lt_trans (Nat.mul_lt_mul_of_pos_right hu hsp) hvhi
  have hor : u1 * 2 ^ s ||| u0 / 2 ^ (64 - s) = u1 * 2 ^ s + u0 / 2 ^ (64 - s) := by
    have := Nat.two_pow_add_eq_or_of_lt hcl u1
    rw [Nat.mul_comm] at this
    exact this.symm
  rw [hcarry, Nat.mod_eq_of_lt hu1s, hor]
  have hU : (u1 * 2 ^ s + u0 / 2 ^ (64 - s)) * 2 ^ 64 + u0 * 2 ^ s % 2 ^ 64 = (u1 * 2 ^ 64 + u0) * 2 ^ s := by
    have e1 : u0 * 2 ^ s % 2 ^ 64 = u0 % 2 ^ (64 - s) * 2 ^ s := by
      rw [← hsplit, Nat.mul_comm (2 ^ s) (2 ^ (64 - s)), Nat.mul_mod_mul_right]
    have e2 : 2 ^ (64 - s) * (u0 / 2 ^ (64 - s)) + u0 % 2 ^ (64 - s) = u0 := Nat.div_add_mod _ _
    have e3 : (u1 * 2 ^ s + u0 / 2 ^ (64 - s)) * 2 ^ 64 = u1 * 2 ^ 64 * 2 ^ s + (2 ^ (64 - s) * (u0 / 2 ^ (64 - s))) * 2 ^ s := by
      have : u0 / 2 ^ (64 - s) * 2 ^ 64 = (2 ^ (64 - s) * (u0 / 2 ^ (64 - s))) * 2 ^ s := by rw [← hsplit]; ring
      rw [Nat.add_mul, this]; ring
    rw [e1, e3]
    have e4 : u1 * 2 ^ 64 * 2 ^ s + 2 ^ (64 - s) * (u0 / 2 ^ (64 - s)) * 2 ^ s + u0 % 2 ^ (64 - s) * 2 ^ s =
      (u1 * 2 ^ 64 + (2 ^ (64 - s) * (u0 / 2 ^ (64 - s)) + u0 % 2 ^ (64 - s))) * 2 ^ s := by ring
    rw [e4, e2]
  have hun : u1 * 2 ^ s + u0 / 2 ^ (64 - s) < v * 2 ^ s := by
    have : (u1 + 1) * 2 ^ s ≤ v * 2 ^ s := Nat.mul_le_mul_right _ hu
    have e : (u1 + 1) * 2 ^ s = u1 * 2 ^ s + 2 ^ s := by ring
    omega
  have hquot : (u1 * 2 ^ 64 + u0) / v = ((u1 * 2 ^ 64 + u0) * 2 ^ s) / (v * 2 ^ s) := (Nat.mul_div_mul_right _ _ hsp).symm
  have hrem : (u1 * 2 ^ 64 + u0) % v * 2 ^ s = ((u1 * 2 ^ 64 + u0) * 2 ^ s) % (v * 2 ^ s) := (Nat.mul_mod_mul_right _ _ _).symm
  generalize hXX : (u1 * 2 ^ 64 + u0) * 2 ^ s = XX at *
  generalize u1 * 2 ^ s + u0 / 2 ^ (64 - s) = a at *
  have hc64 : u0 * 2 ^ s % 2 ^ 64 < 2 ^ 64 := Nat.mod_lt _ (by decide)
  generalize u0 * 2 ^ s % 2 ^ 64 = c at *
  generalize v * 2 ^ s = V at *
  -- digits
  have hB : B = 2 ^ 32 := rfl
  have hBpos : 0 < B := by decide
  have hVd : V / B * B + V % B = V := by rw [Nat.mul_comm]; exact Nat.div_add_mod _ _
  have hVpos : 0 < V := by omega
  have hvn1 : 2 ^ 31 ≤ V / B := by rw [Nat.le_div_iff_mul_le hBpos]; rw [hB]; omega
  have hvn1' : V / B < B := by rw [Nat.div_lt_iff_lt_mul hBpos]; rw [hBB]; exact hvhi
  have hvn0 : V % B < B := Nat.mod_lt _ hBpos
  have hc1 : c / B < B := by rw [Nat.div_lt_iff_lt_mul hBpos]; rw [hBB]; exact hc64
  have hc0 : c % B < B := Nat.mod_lt _ hBpos
  have hcd : c / B * B + c % B = c := by rw [Nat.mul_comm]; exact Nat.div_add_mod _ _
  have hq1 := digit_eq hvn1 hvn1' hvn0 hc1 (u1 := a) (by rw [hVd]; exact hun)
  rw [hVd] at hq1
  rw [hq1]
  have hdm1 : V * ((a * B + c / B) / V) + (a * B + c / B) % V = a * B + c / B := Nat.div_add_mod _ _
  have hr1 : (a * B + c / B) % V < V := Nat.mod_lt _ hVpos
  have hcm1 : (a * B + c / B) / V * V = V * ((a * B + c / B) / V) := Nat.mul_comm _ _
  have hun21 : (a * B % 2 ^ 64 + c / B + (2 ^ 64 - (a * B + c / B) / V * V % 2 ^ 64)) % 2 ^ 64 = (a * B + c / B) % V := by
    rw [sub_mod (by decide) (by omega) (by omega)]; omega
  rw [hun21]
  have hq0 := digit_eq hvn1 hvn1' hvn0 hc0 (u1 := (a * B + c / B) % V) (by rw [hVd]; exact hr1)
  rw [hVd] at hq0
  rw [hq0]
  have hdm0 : V * (((a * B + c / B) % V * B + c % B) / V) + ((a * B + c / B) % V * B + c % B) % V = (a * B + c / B) % V * B + c % B :=
    Nat.div_add_mod _ _
  have hr0 : ((a * B + c / B) % V * B + c % B) % V < V := Nat.mod_lt _ hVpos
  have hcm0 : ((a * B + c / B) % V * B + c % B) / V * V = V * (((a * B + c / B) % V * B + c % B) / V) := Nat.mul_comm _ _
  have hrr : ((a * B + c / B) % V * B % 2 ^ 64 + c % B + (2 ^ 64 - ((a * B + c / B) % V * B + c % B) / V * V % 2 ^ 64)) % 2 ^ 64 =
      ((a * B + c / B) % V * B + c % B) % V := by
    rw [sub_mod (by decide) (by omega) (by omega)]; omega
  rw [hrr]
  obtain ⟨hl1, hl2⟩ := long_div (X := a * B + c / B) (c := c % B) (b := B) hVpos
  have hXe : (a * B + c / B) * B + c % B = XX := by
    rw [← hU, ← hBB]
    have : (a * B + c / B) * B + c % B = a * (B * B) + (c / B * B + c % B) := by ring
    rw [this, hcd]
  rw [hXe] at hl1 hl2
  rw [← hl1, ← hl2, ← hquot, ← hrem, Nat.mul_div_cancel _ hsp]
  congr 2
  refine Nat.mod_eq_of_lt ?_
  rw [Nat.div_lt_iff_lt_mul (by omega)]
  have : (u1 + 1) * 2 ^ 64 ≤ v * 2 ^ 64 := Nat.mul_le_mul_right _ hu
  have e : (u1 + 1) * 2 ^ 64 = u1 * 2 ^ 64 + 2 ^ 64 := by ring
  rw [Nat.mul_comm (2 ^ 64) v]
  omega

/-- The product in four parts. -/
theorem mulhiSplit_eq {x y : Nat} (hx : x < 2 ^ 64) (hy : y < 2 ^ 64) : mulhiSplit x y = mulhi 64 x y := by
  have hBpos : 0 < B := by decide
  have hBB : B * B = 2 ^ 64 := by decide
  have hM : M64 = B * B := by decide
  have h32 : (2 : Nat) ^ 32 = B := rfl
  unfold mulhiSplit mulhi
  simp only [h32]
  have hxd : x / B * B + x % B = x := by rw [Nat.mul_comm]; exact Nat.div_add_mod _ _
  have hyd : y / B * B + y % B = y := by rw [Nat.mul_comm]; exact Nat.div_add_mod _ _
  have hx1 : x / B < B := by rw [Nat.div_lt_iff_lt_mul hBpos, hBB]; exact hx
  have hy1 : y / B < B := by rw [Nat.div_lt_iff_lt_mul hBpos, hBB]; exact hy
  have hx0 : x % B < B := Nat.mod_lt _ hBpos
  have hy0 : y % B < B := Nat.mod_lt _ hBpos
  have hprod : x * y < M64 * M64 := Nat.mul_lt_mul'' (by rw [hM, hBB]; exact hx) (by rw [hM, hBB]; exact hy)
  generalize x / B = x1 at *
  generalize x % B = x0 at *
  generalize y / B = y1 at *
  generalize y % B = y0 at *
  have hle : ∀ a b, a < B → b < B → a * b + B + B ≤ B * B + 1 := by
    intro a b ha hb
    have h1 : a * b ≤ (B - 1) * (B - 1) := Nat.mul_le_mul (by omega) (by omega)
    have h2 : (B - 1) * (B - 1) + B + B = B * B + 1 := by decide
    omega
  have h00 := hle x0 y0 hx0 hy0
  have h10 := hle x1 y0 hx1 hy0
  have h01 := hle x0 y1 hx0 hy1
  have h11 := hle x1 y1 hx1 hy1
  have hB2 : 2 ≤ B := by decide
  have hhi : x0 * y0 / B < B := by rw [Nat.div_lt_iff_lt_mul hBpos]; omega
  rw [Nat.mod_eq_of_lt (show x1 * y0 < M64 by omega), Nat.mod_eq_of_lt (show x1 * y1 < M64 by omega),
    Nat.mod_eq_of_lt (show x0 * y1 < M64 by omega), Nat.mod_eq_of_lt (show x1 * y0 + x0 * y0 / B < M64 by omega)]
  generalize ht : x1 * y0 + x0 * y0 / B = t
  have htl : t % B < B := Nat.mod_lt _ hBpos
  rw [Nat.mod_eq_of_lt (show t % B + x0 * y1 < M64 by omega)]
  have hgoal : x1 * y1 + t / B + (t % B + x0 * y1) / B = x * y / 2 ^ 64 := by
    have hxy : x * y = (x1 * y1) * (B * B) + (x1 * y0 + x0 * y1) * B + x0 * y0 := by rw [← hxd, ← hyd]; ring
    rw [← hBB, ← Nat.div_div_eq_div_mul, hxy]
    have e1 : ((x1 * y1) * (B * B) + (x1 * y0 + x0 * y1) * B + x0 * y0) / B = x1 * y1 * B + x0 * y1 + t := by
      have : (x1 * y1) * (B * B) + (x1 * y0 + x0 * y1) * B + x0 * y0 = x0 * y0 + B * (x1 * y1 * B + (x1 * y0 + x0 * y1)) := by ring
      rw [this, Nat.add_mul_div_left _ _ hBpos]
      omega
    rw [e1]
    have htd : B * (t / B) + t % B = t := Nat.div_add_mod _ _
    have e2 : x1 * y1 * B + x0 * y1 + t = (t % B + x0 * y1) + B * (x1 * y1 + t / B) := by
      have : B * (x1 * y1 + t / B) = x1 * y1 * B + B * (t / B) := by ring
      omega
    rw [e2, Nat.add_mul_div_left _ _ hBpos]
    omega
  rw [hgoal]
  refine Nat.mod_eq_of_lt ?_
  rw [Nat.div_lt_iff_lt_mul (by decide)]
  exact hprod

/-! ### The magic number -/

theorem and_pred_pow {d : Nat} (hd : 0 < d) (h : d &&& (d - 1) = 0) : d = 2 ^ topBit d := by
  obtain ⟨h1, h2⟩ := log2_bounds (show d ≠ 0 by omega)
  by_contra hc
  have hgt : 2 ^ topBit d < d := by omega
  -- both have the highest bit
  have b1 : d.testBit (topBit d) = true := by
    rw [Nat.testBit_eq_decide_div_mod_eq]
    have : d / 2 ^ topBit d = 1 := by
      apply Nat.div_eq_of_lt_le
      · omega
      · rw [Nat.pow_succ] at h2; omega
    simp [this]
  have b2 : (d - 1).testBit (topBit d) = true := by
    rw [Nat.testBit_eq_decide_div_mod_eq]
    have : (d - 1) / 2 ^ topBit d = 1 := by
      apply Nat.div_eq_of_lt_le
      · omega
      · rw [Nat.pow_succ] at h2; omega
    simp [this]
  have : (d &&& (d - 1)).testBit (topBit d) = true := by rw [Nat.testBit_and, b1, b2]; rfl
  rw [h] at this
  simp at this

theorem pow_and_pred (k : Nat) : 2 ^ k &&& (2 ^ k - 1) = 0 := by
  rw [Nat.and_two_pow_sub_one_eq_mod, Nat.mod_self]

theorem ctz_pow : ∀ (f k : Nat), k < f → ctz f (2 ^ k) = k
  | 0, k, h => by omega
  | f + 1, 0, _ => by simp [ctz]
  | f + 1, k + 1, h => by
    have h1 : 2 ^ (k + 1) % 2 = 0 := by rw [Nat.pow_succ]; omega
    have h2 : 2 ^ (k + 1) / 2 = 2 ^ k := by rw [Nat.pow_succ]; omega
    rw [ctz, if_neg (by omega), h2, ctz_pow f k (by omega)]

theorem more_shift {w k : Nat} (hw : w = 32 ∨ w = 64) (hk : k < w) :
    (k ||| shiftPath) &&& shiftMask w = k ∧ (k ||| shiftPath) &&& shiftPath ≠ 0 ∧
    (k ||| addMarker) &&& shiftMask w = k ∧ (k ||| addMarker) &&& shiftPath = 0 ∧ (k ||| addMarker) &&& addMarker ≠ 0 ∧
    k &&& shiftPath = 0 ∧ k &&& addMarker = 0 := by
  rcases hw with rfl | rfl
  · revert k; decide
  · revert k; decide

/-- What `gen` computes. -/
inductive Made (w d : Nat) : Denom → Prop
  | shift (k : Nat) : k < w → d = 2 ^ k → Made w d ⟨0, k ||| shiftPath⟩
  | small (k M e : Nat) : k < w → M < 2 ^ w → M * d = 2 ^ (w + k) + e → e < 2 ^ k → Made w d ⟨M, k⟩
  | large (k M e : Nat) : k < w → M < 2 ^ w → (2 ^ w + M) * d = 2 ^ (w + k + 1) + e → e ≤ 2 ^ (k + 1) → Made w d ⟨M, k ||| addMarker⟩

theorem gen_made {w : Nat} {wide : Nat → Nat → Nat → Option (Nat × Nat)} (hx : DividesWide w wide) {d : Nat} (hd : 0 < d) (hdw : d < 2 ^ w) :
    ∃ x, gen w wide d = some x ∧ Made w d x := by
  obtain ⟨hk1, hk2⟩ := log2_bounds (show d ≠ 0 by omega)
  have hkw : topBit d < w := (Nat.pow_lt_pow_iff_right (by decide : 1 < 2)).1 (Nat.lt_of_le_of_lt hk1 hdw)
  unfold gen
  rw [if_neg (by omega)]
  split
  · rename_i hp
    have he := and_pred_pow hd hp
    refine ⟨_, rfl, ?_⟩
    have : ctz w d = topBit d := by
      have := ctz_pow w (topBit d) hkw
      rw [← he] at this
      exact this
    rw [this]
    exact .shift _ hkw he
  · rename_i hnp
    have hgt : 2 ^ topBit d < d := by
      rcases Nat.lt_or_ge (2 ^ topBit d) d with h | h
      · exact h
      · exfalso
        have : d = 2 ^ topBit d := by omega
        exact hnp (by rw [this]; exact pow_and_pred _)
    simp only
    generalize topBit d = k at *
    rw [hx (2 ^ k) 0 d hdw hgt (Nat.pow_pos (by decide))]
    simp only [Nat.add_zero]
    have hpw : 2 ^ k * 2 ^ w = 2 ^ (w + k) := by rw [← Nat.pow_add, Nat.add_comm]
    rw [hpw]
    have hdm : d * (2 ^ (w + k) / d) + 2 ^ (w + k) % d = 2 ^ (w + k) := Nat.div_add_mod _ _
    have hrl : 2 ^ (w + k) % d < d := Nat.mod_lt _ hd
    have hml : 2 ^ (w + k) / d < 2 ^ w := by
      rw [Nat.div_lt_iff_lt_mul hd, ← hpw, Nat.mul_comm]
      exact Nat.mul_lt_mul_of_pos_left hgt (Nat.pow_pos (by decide))
    have hPk : 0 < 2 ^ k := Nat.pow_pos (by decide)
    have hPw : 0 < 2 ^ w := Nat.pow_pos (by decide)
    have hkw2 : 2 ^ k ≤ 2 ^ w := Nat.pow_le_pow_right (by decide) (by omega)
    generalize 2 ^ (w + k) / d = m at *
    generalize hrem : 2 ^ (w + k) % d = rem at *
    have hP1 : 2 ^ (w + k + 1) = 2 * 2 ^ (w + k) := by rw [Nat.pow_succ]; omega
    have hK1 : 2 ^ (k + 1) = 2 * 2 ^ k := by rw [Nat.pow_succ]; omega
    split
    · rename_i he
      refine ⟨_, rfl, ?_⟩
      have hMd : (1 + m) * d = 2 ^ (w + k) + (d - rem) := by
        have : (1 + m) * d = d + d * m := by ring
        omega
      have hMl : 1 + m < 2 ^ w := by
        by_contra hc
        have h1 : 2 ^ w * d ≤ (1 + m) * d := Nat.mul_le_mul_right _ (by omega)
        have h2 : 2 ^ w * (2 ^ k + 1) ≤ 2 ^ w * d := Nat.mul_le_mul_left _ hgt
        have h3 : 2 ^ w * (2 ^ k + 1) = 2 ^ (w + k) + 2 ^ w := by rw [← hpw]; ring
        omega
      rw [Nat.mod_eq_of_lt hMl]
      exact .small k _ _ hkw hMl hMd he
    · rename_i he
      refine ⟨_, rfl, ?_⟩
      -- the doubled division
      have htw : ((rem + rem) % 2 ^ w ≥ d ∨ (rem + rem) % 2 ^ w < rem) ↔ d ≤ rem + rem := by
        rcases Nat.lt_or_ge (rem + rem) (2 ^ w) with h | h
        · rw [Nat.mod_eq_of_lt h]; omega
        · have : (rem + rem) % 2 ^ w = rem + rem - 2 ^ w := by
            rw [Nat.mod_eq_sub_mod h, Nat.mod_eq_of_lt (by omega)]
          rw [this]; omega
      -- the whole multiplier
      have key : ∀ c : Nat, (c = 0 ∨ c = 1) → (c = 1 ↔ d ≤ rem + rem) →
          ∃ e, (2 * m + c + 1) * d = 2 ^ (w + k + 1) + e ∧ e ≤ 2 ^ (k + 1) ∧ 2 ^ w ≤ 2 * m + c + 1 ∧ 2 * m + c + 1 < 2 * 2 ^ w := by
        intro c hc hiff
        have e1 : (2 * m + c + 1) * d = 2 * (d * m) + c * d + d := by ring
        have hcd : c * d = if c = 1 then d else 0 := by rcases hc with h | h <;> subst h <;> simp
        have hge : 2 ^ (w + k + 1) ≤ (2 * m + c + 1) * d ∧ (2 * m + c + 1) * d ≤ 2 ^ (w + k + 1) + d := by
          rw [e1, hcd, hP1]
          split
          · rename_i h1
            have := hiff.1 h1
            omega
          · rename_i h1
            have : ¬ d ≤ rem + rem := fun h => h1 (hiff.2 h)
            omega
        refine ⟨(2 * m + c + 1) * d - 2 ^ (w + k + 1), by omega, by omega, ?_, ?_⟩
        · by_contra hlt
          have h1 : (2 * m + c + 1) * d ≤ (2 ^ w - 1) * d := Nat.mul_le_mul_right _ (by omega)
          have h2 : (2 ^ w - 1) * d + d = 2 ^ w * d := by
            have : 2 ^ w = (2 ^ w - 1) + 1 := by omega
            calc (2 ^ w - 1) * d + d = ((2 ^ w - 1) + 1) * d := by ring
              _ = 2 ^ w * d := by rw [← this]
          have h3 : 2 ^ w * d ≤ 2 ^ w * 2 ^ (k + 1) := Nat.mul_le_mul_left _ (by omega)
          have h4 : 2 ^ w * 2 ^ (k + 1) = 2 ^ (w + k + 1) := by rw [← Nat.pow_add]; congr 1
          omega
        · by_contra hlt
          have h1 : 2 * 2 ^ w * d ≤ (2 * m + c + 1) * d := Nat.mul_le_mul_right _ (by omega)
          have h2 : 2 * 2 ^ w * (2 ^ k + 1) ≤ 2 * 2 ^ w * d := Nat.mul_le_mul_left _ hgt
          have h3 : 2 * 2 ^ w * (2 ^ k + 1) = 2 ^ (w + k + 1) + 2 * 2 ^ w := by rw [hP1, ← hpw]; ring
          omega
      have fin : ∀ c : Nat, (c = 0 ∨ c = 1) → (c = 1 ↔ d ≤ rem + rem) →
          Made w d ⟨(1 + ((m + m) % 2 ^ w + c) % 2 ^ w) % 2 ^ w, k ||| addMarker⟩ := by
        intro c hc hiff
        obtain ⟨e, h1, h2, h3, h4⟩ := key c hc hiff
        have hmod : (1 + ((m + m) % 2 ^ w + c) % 2 ^ w) % 2 ^ w = 2 * m + c + 1 - 2 ^ w := by
          rw [Nat.add_mod_mod, ← Nat.add_assoc, Nat.add_right_comm, Nat.add_mod_mod]
          have : 1 + c + (m + m) = 2 * m + c + 1 := by ring
          rw [this, Nat.mod_eq_sub_mod h3, Nat.mod_eq_of_lt (by omega)]
        rw [hmod]
        refine .large k _ e hkw (by omega) ?_ h2
        rw [← h1]
        congr 1
        omega
      by_cases hc : (rem + rem) % 2 ^ w ≥ d ∨ (rem + rem) % 2 ^ w < rem
      · rw [if_pos hc]
        exact fin 1 (Or.inr rfl) ⟨fun _ => htw.1 hc, fun _ => rfl⟩
      · rw [if_neg hc]
        have := fin 0 (Or.inl rfl) ⟨fun h => (by cases h), fun h => absurd (htw.2 h) hc⟩
        rw [Nat.add_zero, Nat.mod_mod] at this
        exact this

theorem small_div {w d k M e n : Nat} (hd : 0 < d) (hn : n < 2 ^ w) (h1 : M * d = 2 ^ (w + k) + e) (h2 : e < 2 ^ k) :
    mulhi w M n / 2 ^ k = n / d := by
  unfold mulhi
  rw [Nat.div_div_eq_div_mul, ← Nat.pow_add]
  refine magic_div hd h1 ?_
  rw [Nat.pow_add]
  rcases Nat.eq_zero_or_pos e with he | he
  · subst he
    exact Nat.mul_pos (Nat.pow_pos (by decide)) (Nat.pow_pos (by decide))
  · exact Nat.mul_lt_mul'' hn h2

theorem large_div {w d k M e n : Nat} (hd : 0 < d) (hn : n < 2 ^ w) (hM : M < 2 ^ w) (h1 : (2 ^ w + M) * d = 2 ^ (w + k + 1) + e)
    (h2 : e ≤ 2 ^ (k + 1)) :
    ((n + (2 ^ w - mulhi w M n)) % 2 ^ w / 2 + mulhi w M n) % 2 ^ w / 2 ^ k = n / d := by
  have hPw : 0 < 2 ^ w := Nat.pow_pos (by decide)
  have hq : mulhi w M n ≤ n := by
    unfold mulhi
    rcases Nat.eq_zero_or_pos n with h | h
    · subst h; simp
    · refine Nat.le_of_lt_succ ((Nat.div_lt_iff_lt_mul hPw).2 ?_)
      calc M * n ≤ 2 ^ w * n := Nat.mul_le_mul_right _ (by omega)
        _ = n * 2 ^ w := Nat.mul_comm _ _
        _ < (n + 1) * 2 ^ w := Nat.mul_lt_mul_of_pos_right (by omega) hPw
  have e1 : (n + (2 ^ w - mulhi w M n)) % 2 ^ w = n - mulhi w M n := by
    rcases Nat.eq_zero_or_pos (mulhi w M n) with h | h
    · rw [h, Nat.sub_zero, Nat.add_mod_right, Nat.mod_eq_of_lt hn]; omega
    · have : n + (2 ^ w - mulhi w M n) = n - mulhi w M n + 2 ^ w := by omega
      rw [this, Nat.add_mod_right, Nat.mod_eq_of_lt (by omega)]
  have e2 : (n - mulhi w M n) / 2 + mulhi w M n = (n + mulhi w M n) / 2 := by omega
  rw [e1, e2, Nat.mod_eq_of_lt (by omega), Nat.div_div_eq_div_mul]
  have e3 : n + mulhi w M n = (2 ^ w + M) * n / 2 ^ w := by
    unfold mulhi
    have : (2 ^ w + M) * n = M * n + 2 ^ w * n := by ring
    rw [this, Nat.add_mul_div_left _ _ hPw]; omega
  have e4 : 2 * 2 ^ k = 2 ^ (k + 1) := by rw [Nat.pow_succ]; omega
  rw [e3, e4, Nat.div_div_eq_div_mul, ← Nat.pow_add, ← Nat.add_assoc]
  refine magic_div hd h1 ?_
  have e5 : 2 ^ (w + k + 1) = 2 ^ w * 2 ^ (k + 1) := by rw [← Nat.pow_add]; congr 1
  rw [e5]
  calc n * e ≤ n * 2 ^ (k + 1) := Nat.mul_le_mul_left _ h2
    _ < 2 ^ w * 2 ^ (k + 1) := Nat.mul_lt_mul_of_pos_right hn (Nat.pow_pos (by decide))

end Verif.Divide
