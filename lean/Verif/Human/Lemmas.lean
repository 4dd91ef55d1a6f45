import Verif.Human.Model
import Verif.Human.Spec
namespace Verif.Human
open Verif.Text

/-- The spacing of the doubles around `m`. -/
def ulp (m : Nat) : Nat := 2 ^ (m.log2 - 52)

/-- `m` units is a double: it has at most 53 significant bits. -/
def IsDbl (m : Nat) : Prop := ulp m ∣ m

theorem rne_exact {m : Nat} (h : IsDbl m) : rne m = m := by
  obtain ⟨q, hq⟩ := h
  unfold rne
  split
  · rfl
  · simp only [ulp] at hq
    have hu : 0 < 2 ^ (m.log2 - 52) := Nat.pow_pos (by omega)
    generalize 2 ^ (m.log2 - 52) = u at *
    have : m % u = 0 := by rw [hq]; simp
    dsimp only
    rw [this]
    simp only [Nat.mul_zero, hu, if_true]
    rw [hq, Nat.mul_div_cancel_left _ hu, Nat.mul_comm]

/-- The error is at most half the spacing. -/
theorem rne_near (m : Nat) : 2 * rne m ≤ 2 * m + ulp m ∧ 2 * m ≤ 2 * rne m + ulp m := by
  unfold rne ulp
  split
  · exact ⟨Nat.le_add_right _ _, Nat.le_add_right _ _⟩
  · have hu : 0 < 2 ^ (m.log2 - 52) := Nat.pow_pos (by omega)
    generalize 2 ^ (m.log2 - 52) = u at *
    dsimp only
    have h := Nat.div_add_mod m u
    have hm : m % u < u := Nat.mod_lt _ hu
    rw [Nat.mul_comm] at h
    have h' : (m / u + 1) * u = m / u * u + u := by rw [Nat.add_mul, Nat.one_mul]
    generalize m / u * u = a at *
    generalize m % u = r at *
    simp only [h']
    split
    · omega
    · split
      · omega
      · split <;> omega

theorem ulp_le {m k : Nat} (hm : m < 2 ^ k) : ulp m ∣ 2 ^ (k - 53) := by
  unfold ulp
  apply Nat.pow_dvd_pow
  by_cases h0 : m = 0
  · subst h0; simp
  · have := (Nat.log2_lt h0).2 hm
    omega

theorem ulp_ge {m k : Nat} (hm : 2 ^ k ≤ m) : 2 ^ (k - 52) ∣ ulp m := by
  unfold ulp
  apply Nat.pow_dvd_pow
  have h0 : m ≠ 0 := by have := Nat.pow_pos (n := k) (show 0 < 2 by omega); omega
  have := (Nat.le_log2 h0).2 hm
  omega

theorem log2_between {m k : Nat} (h1 : 2 ^ k ≤ m) (h2 : m < 2 ^ (k + 1)) : m.log2 = k := by
  have h0 : m ≠ 0 := by have := Nat.pow_pos (n := k) (show 0 < 2 by omega); omega
  have a := (Nat.le_log2 h0).2 h1
  have b := (Nat.log2_lt h0).2 h2
  omega

/-- Rounding when the quotient and remainder by the spacing are known. -/
theorem rne_of {m k q r : Nat} (h1 : 2 ^ k ≤ m) (h2 : m < 2 ^ (k + 1)) (hk : 53 ≤ k) (hm : m = q * 2 ^ (k - 52) + r) (hr : r < 2 ^ (k - 52)) :
    rne m = if 2 * r < 2 ^ (k - 52) then q * 2 ^ (k - 52) else if 2 ^ (k - 52) < 2 * r then (q + 1) * 2 ^ (k - 52)
      else if q % 2 = 0 then q * 2 ^ (k - 52) else (q + 1) * 2 ^ (k - 52) := by
  have hl := log2_between h1 h2
  have hu : 0 < 2 ^ (k - 52) := Nat.pow_pos (by omega)
  unfold rne
  rw [hl]
  simp only [show ¬ k < 53 by omega, if_false]
  generalize 2 ^ (k - 52) = u at *
  have hd : m / u = q := by
    rw [hm, Nat.mul_comm, Nat.mul_add_div hu, Nat.div_eq_of_lt hr]; omega
  have hmod : m % u = r := by
    rw [hm, Nat.mul_comm, Nat.mul_add_mod, Nat.mod_eq_of_lt hr]
  rw [hd, hmod]

/-- Adding one half to a whole number below 2^52 is exact. -/
theorem half_small (E n : Nat) (hE : 1 ≤ E) (hn : n < 2 ^ 52) : rne (n * 2 ^ E + 2 ^ E / 2) = n * 2 ^ E + 2 ^ E / 2 := by
  obtain ⟨e, rfl⟩ : ∃ e, E = e + 1 := ⟨E - 1, by omega⟩
  have h2 : 2 ^ (e + 1) / 2 = 2 ^ e := by rw [Nat.pow_succ]; omega
  rw [h2]
  apply rne_exact
  unfold IsDbl
  have hlt : n * 2 ^ (e + 1) + 2 ^ e < 2 ^ (e + 53) := by
    have a : (n + 1) * 2 ^ (e + 1) ≤ 2 ^ 52 * 2 ^ (e + 1) := Nat.mul_le_mul_right _ (by omega)
    rw [← Nat.pow_add, show 52 + (e + 1) = e + 53 by omega, Nat.add_mul] at a
    have := Nat.pow_pos (n := e) (show 0 < 2 by omega)
    have : 2 ^ (e + 1) = 2 * 2 ^ e := by rw [Nat.pow_succ]; omega
    omega
  refine Nat.dvd_trans (ulp_le hlt) ?_
  rw [show e + 53 - 53 = e by omega, show n * 2 ^ (e + 1) + 2 ^ e = 2 ^ e * (2 * n + 1) by rw [Nat.pow_succ]; grind]
  exact Nat.dvd_mul_right _ _

/-- Between 2^52 and 2^53 the sum is a tie, and an odd number is rounded up. -/
theorem half_mid (E n : Nat) (hE : 1 ≤ E) (h1 : 2 ^ 52 ≤ n) (h2 : n < 2 ^ 53) :
    rne (n * 2 ^ E + 2 ^ E / 2) = (n + n % 2) * 2 ^ E := by
  have hp := Nat.pow_pos (n := E) (show 0 < 2 by omega)
  have he : 2 ^ E % 2 = 0 := by
    obtain ⟨e, rfl⟩ : ∃ e, E = e + 1 := ⟨E - 1, by omega⟩
    rw [Nat.pow_succ]; omega
  have lo : 2 ^ (E + 52) ≤ n * 2 ^ E + 2 ^ E / 2 := by
    have := Nat.mul_le_mul_right (2 ^ E) h1
    rw [← Nat.pow_add, Nat.add_comm] at this; omega
  have hi : n * 2 ^ E + 2 ^ E / 2 < 2 ^ (E + 52 + 1) := by
    have := Nat.mul_le_mul_right (2 ^ E) (show n + 1 ≤ 2 ^ 53 by omega)
    rw [← Nat.pow_add, Nat.add_comm, Nat.add_mul] at this
    rw [show E + 52 + 1 = E + 53 by omega, Nat.add_comm E 53]
    rw [Nat.add_comm 53] at *
    omega
  rw [rne_of lo hi (by omega) (q := n) (r := 2 ^ E / 2) (by rw [show E + 52 - 52 = E by omega]) (by rw [show E + 52 - 52 = E by omega]; omega)]
  rw [show E + 52 - 52 = E by omega]
  simp only [show ¬ 2 * (2 ^ E / 2) < 2 ^ E by omega, show ¬ 2 ^ E < 2 * (2 ^ E / 2) by omega, if_false]
  split
  · rename_i h; rw [h]; rfl
  · rename_i h; rw [show n % 2 = 1 by omega]

/-- From 2^53 on, one half is rounded away. -/
theorem half_big (E m : Nat) (hE : 1 ≤ E) (h1 : 2 ^ (E + 53) ≤ m) (hd : IsDbl m) : rne (m + 2 ^ E / 2) = m := by
  have h0 : m ≠ 0 := by have := Nat.pow_pos (n := E + 53) (show 0 < 2 by omega); omega
  have hL := (Nat.le_log2 h0).2 h1
  have a := Nat.log2_self_le h0
  have b := Nat.lt_log2_self (n := m)
  obtain ⟨q, hq⟩ := hd
  unfold ulp at hq
  generalize m.log2 = L at *
  have hlt : 2 ^ E < 2 ^ (L - 52) := Nat.pow_lt_pow_right (by omega) (by omega)
  have hqb : m + 2 ^ (L - 52) ≤ 2 ^ (L + 1) := by
    have e : 2 ^ (L + 1) = 2 ^ (L - 52) * 2 ^ 53 := by rw [← Nat.pow_add]; congr 1; omega
    rw [e] at b ⊢
    rw [hq] at b ⊢
    have : q < 2 ^ 53 := Nat.lt_of_mul_lt_mul_left b
    rw [← Nat.mul_succ]
    exact Nat.mul_le_mul_left _ this
  have hp := Nat.pow_pos (n := E) (show 0 < 2 by omega)
  rw [rne_of (k := L) (q := q) (r := 2 ^ E / 2) (by omega) (by omega) (by omega) (by rw [Nat.mul_comm q]; omega) (by omega)]
  rw [if_pos (by omega), Nat.mul_comm, ← hq]

/-- Below 2^52 the sum with one half is off by at most one half. -/
theorem half_near (E m : Nat) (hE : 1 ≤ E) (h : m < 2 ^ (E + 52)) :
    2 * rne (m + 2 ^ E / 2) ≤ 2 * m + 2 * 2 ^ E ∧ 2 * m ≤ 2 * rne (m + 2 ^ E / 2) := by
  have he : 2 * (2 ^ E / 2) = 2 ^ E := by
    obtain ⟨e, rfl⟩ : ∃ e, E = e + 1 := ⟨E - 1, by omega⟩
    rw [Nat.pow_succ]; omega
  have hp := Nat.pow_pos (n := E) (show 0 < 2 by omega)
  have hlt : m + 2 ^ E / 2 < 2 ^ (E + 53) := by
    have : 2 ^ (E + 53) = 2 ^ (E + 52) * 2 := by rw [← Nat.pow_succ]
    have : 2 ^ E ≤ 2 ^ (E + 52) := Nat.pow_le_pow_right (by omega) (by omega)
    omega
  have hu := Nat.le_of_dvd (Nat.pow_pos (by omega)) (ulp_le hlt)
  rw [show E + 53 - 53 = E by omega] at hu
  have := rne_near (m + 2 ^ E / 2)
  omega

end Verif.Human
