import Verif.Zipf.Model
/-!
# Properties of the Zipf generator (C126)
-/
namespace Verif.Zipf

variable {θ : ℝ}

theorem zeta_term_pos (n : ℕ) : 0 < 1 / ((n + 1 : ℕ) : ℝ) ^ θ := by
  have : (0 : ℝ) < ((n + 1 : ℕ) : ℝ) := by exact_mod_cast Nat.succ_pos n
  exact one_div_pos.2 (Real.rpow_pos_of_pos this θ)

theorem zeta_mono {m n : ℕ} (h : m ≤ n) : zeta θ m ≤ zeta θ n := by
  induction n, h using Nat.le_induction with
  | base => exact le_refl _
  | succ n _ ih => have := zeta_term_pos (θ := θ) n; simp only [zeta]; linarith

theorem zeta_lt {m n : ℕ} (h : m < n) : zeta θ m < zeta θ n := by
  have h1 := zeta_mono (θ := θ) (Nat.succ_le_of_lt h)
  have h2 := zeta_term_pos (θ := θ) m
  have : zeta θ (m + 1) = zeta θ m + 1 / ((m + 1 : ℕ) : ℝ) ^ θ := rfl
  have h1' : zeta θ (m + 1) ≤ zeta θ n := h1
  linarith

theorem zeta_two : zeta θ 2 = 1 + (1 / 2 : ℝ) ^ θ := by
  have h : (1 / 2 : ℝ) ^ θ = 1 / 2 ^ θ := by rw [Real.div_rpow (by norm_num) (by norm_num), Real.one_rpow]
  rw [h]; simp [zeta]

theorem zeta_one : zeta θ 1 = 1 := by simp [zeta]

theorem zeta_pos {n : ℕ} (h : 0 < n) : 0 < zeta θ n := by
  have : zeta θ 0 < zeta θ n := zeta_lt h
  simpa [zeta] using this

/-- The argument of the power in the third branch. -/
noncomputable def arg (θ : ℝ) (n : ℕ) (u : ℝ) : ℝ := eta θ n * u - eta θ n + 1

theorem eta_parts (h1 : θ < 1) {n : ℕ} (hn : 3 ≤ n) :
    0 < 1 - zeta θ 2 / zeta θ n ∧ 0 < 1 - (2 / (n : ℝ)) ^ (1 - θ) ∧ 0 < (2 / (n : ℝ)) ^ (1 - θ) ∧ 0 < eta θ n := by
  have hz : zeta θ 2 < zeta θ n := zeta_lt (by omega)
  have hp : 0 < zeta θ n := zeta_pos (by omega)
  have hnr : (3 : ℝ) ≤ n := by exact_mod_cast hn
  have h2 : (0 : ℝ) < 2 / n := by positivity
  have h3 : (2 : ℝ) / n < 1 := by rw [div_lt_one (by linarith)]; linarith
  have a : 0 < 1 - zeta θ 2 / zeta θ n := by rw [sub_pos, div_lt_one hp]; exact hz
  have b : 0 < 1 - (2 / (n : ℝ)) ^ (1 - θ) := by
    rw [sub_pos]; exact Real.rpow_lt_one h2.le h3 (by linarith)
  exact ⟨a, b, Real.rpow_pos_of_pos h2 _, div_pos b a⟩

theorem arg_bounds (h1 : θ < 1) {n : ℕ} (hn : 3 ≤ n) {u : ℝ} (hu : u < 1) (h : 1 + (1 / 2 : ℝ) ^ θ ≤ u * zeta θ n) :
    (2 / (n : ℝ)) ^ (1 - θ) ≤ arg θ n u ∧ arg θ n u < 1 := by
  obtain ⟨a, b, -, he⟩ := eta_parts h1 hn
  have hp : 0 < zeta θ n := zeta_pos (by omega)
  rw [← zeta_two] at h
  have hu2 : zeta θ 2 / zeta θ n ≤ u := by rw [div_le_iff₀ hp]; exact h
  have hm : eta θ n * (1 - u) ≤ eta θ n * (1 - zeta θ 2 / zeta θ n) := mul_le_mul_of_nonneg_left (by linarith) he.le
  have heq : eta θ n * (1 - zeta θ 2 / zeta θ n) = 1 - (2 / (n : ℝ)) ^ (1 - θ) := by
    unfold eta; exact div_mul_cancel₀ _ a.ne'
  have hpos : 0 < eta θ n * (1 - u) := mul_pos he (by linarith)
  unfold arg
  constructor <;> nlinarith

/-- `x ^ alpha` undoes `y ^ (1 - theta)`. -/
theorem pow_alpha (h1 : θ < 1) {y : ℝ} (hy : 0 ≤ y) : (y ^ (1 - θ)) ^ alpha θ = y := by
  rw [← Real.rpow_mul hy]
  have : (1 - θ) * alpha θ = 1 := by unfold alpha; field_simp [show (1 - θ) ≠ 0 by linarith]
  rw [this, Real.rpow_one]

theorem alpha_pos (h1 : θ < 1) : 0 < alpha θ := one_div_pos.2 (by linarith)

theorem third_bounds (h1 : θ < 1) {n : ℕ} (hn : 3 ≤ n) {u : ℝ} (hu : u < 1) (h : 1 + (1 / 2 : ℝ) ^ θ ≤ u * zeta θ n) :
    2 ≤ (n : ℝ) * arg θ n u ^ alpha θ ∧ (n : ℝ) * arg θ n u ^ alpha θ < n := by
  obtain ⟨hl, hr⟩ := arg_bounds h1 hn hu h
  obtain ⟨-, -, hp, -⟩ := eta_parts h1 hn
  have hn0 : (0 : ℝ) < n := by exact_mod_cast (by omega : 0 < n)
  have e1 : (2 / (n : ℝ)) ≤ arg θ n u ^ alpha θ := by
    have := Real.rpow_le_rpow hp.le hl (alpha_pos h1).le
    rwa [pow_alpha h1 (by positivity)] at this
  have e2 : arg θ n u ^ alpha θ < 1 := Real.rpow_lt_one (hp.le.trans hl) hr (alpha_pos h1)
  constructor
  · have := mul_le_mul_of_nonneg_left e1 hn0.le
    rwa [mul_div_cancel₀ _ hn0.ne'] at this
  · have := mul_lt_mul_of_pos_left e2 hn0
    rwa [mul_one] at this

/-- In the third branch there are at least three items. -/
theorem third_three {n : ℕ} (hn : 2 ≤ n) {u : ℝ} (hu : u < 1) (h : 1 + (1 / 2 : ℝ) ^ θ ≤ u * zeta θ n) : 3 ≤ n := by
  by_contra hc
  have : n = 2 := by omega
  subst this
  rw [← zeta_two] at h
  have := zeta_pos (θ := θ) (n := 2) (by omega)
  nlinarith

theorem res_cases (h1 : θ < 1) {n : ℕ} (hn : 2 ≤ n) (base : ℕ) {u : ℝ} (hu : u < 1) :
    (u * zeta θ n < 1 ∧ res base n θ u = base) ∨
    (1 ≤ u * zeta θ n ∧ u * zeta θ n < 1 + (1 / 2 : ℝ) ^ θ ∧ res base n θ u = base + 1) ∨
    (1 + (1 / 2 : ℝ) ^ θ ≤ u * zeta θ n ∧ 3 ≤ n ∧ res base n θ u = base + n * arg θ n u ^ alpha θ ∧
      2 ≤ (n : ℝ) * arg θ n u ^ alpha θ ∧ (n : ℝ) * arg θ n u ^ alpha θ < n) := by
  unfold res
  by_cases a : u * zeta θ n < 1
  · left; exact ⟨a, if_pos a⟩
  · right
    rw [if_neg a]
    by_cases b : u * zeta θ n < 1 + (1 / 2 : ℝ) ^ θ
    · left; exact ⟨not_lt.1 a, b, if_pos b⟩
    · right
      rw [if_neg b]
      have h := not_lt.1 b
      have h3 := third_three hn hu h
      exact ⟨h, h3, rfl, third_bounds h1 h3 hu h⟩

theorem next_cases (h1 : θ < 1) {n : ℕ} (hn : 2 ≤ n) (base : ℕ) {u : ℝ} (hu : u < 1) :
    (u * zeta θ n < 1 ∧ next base n θ u = base) ∨
    (1 ≤ u * zeta θ n ∧ u * zeta θ n < 1 + (1 / 2 : ℝ) ^ θ ∧ next base n θ u = base + 1) ∨
    (1 + (1 / 2 : ℝ) ^ θ ≤ u * zeta θ n ∧ 3 ≤ n ∧ next base n θ u = base + ⌊(n : ℝ) * arg θ n u ^ alpha θ⌋₊ ∧
      2 ≤ (n : ℝ) * arg θ n u ^ alpha θ ∧ (n : ℝ) * arg θ n u ^ alpha θ < n) := by
  unfold next
  rcases res_cases h1 hn base hu with ⟨a, e⟩ | ⟨a, b, e⟩ | ⟨a, b, e, c, d⟩
  · left; refine ⟨a, ?_⟩; rw [e]; exact Nat.floor_natCast base
  · right; left; refine ⟨a, b, ?_⟩; rw [e]
    have : ((base : ℝ) + 1) = ((base + 1 : ℕ) : ℝ) := by push_cast; rfl
    rw [this]; exact Nat.floor_natCast _
  · right; right; refine ⟨a, b, ?_, c, d⟩; rw [e, add_comm, Nat.floor_add_natCast (by linarith), Nat.add_comm]

/-- In exact arithmetic the generator returns only items between the smallest and the largest one. -/
theorem C126_range_partial (h1 : θ < 1) {n : ℕ} (hn : 2 ≤ n) (base : ℕ) {u : ℝ} (hu : u < 1) :
    base ≤ next base n θ u ∧ next base n θ u ≤ base + n - 1 := by
  rcases next_cases h1 hn base hu with ⟨-, e⟩ | ⟨-, -, e⟩ | ⟨-, -, e, -, d⟩
  · omega
  · omega
  · have : ⌊(n : ℝ) * arg θ n u ^ alpha θ⌋₊ < n := (Nat.floor_lt' (by omega)).2 d
    omega

/-- A larger random number never gives a smaller item. -/
theorem C126_monotone_partial (h1 : θ < 1) {n : ℕ} (hn : 2 ≤ n) (base : ℕ) {u v : ℝ} (huv : u ≤ v) (hv : v < 1) :
    next base n θ u ≤ next base n θ v := by
  have hu : u < 1 := lt_of_le_of_lt huv hv
  have hz := zeta_pos (θ := θ) (n := n) (by omega)
  have hm : u * zeta θ n ≤ v * zeta θ n := mul_le_mul_of_nonneg_right huv hz.le
  have hh : (0 : ℝ) < (1 / 2 : ℝ) ^ θ := Real.rpow_pos_of_pos (by norm_num) θ
  rcases next_cases h1 hn base hu with ⟨-, e⟩ | ⟨a, -, e⟩ | ⟨a, b, e, c, -⟩
  · rw [e]; exact (C126_range_partial h1 hn base hv).1
  · rcases next_cases h1 hn base hv with ⟨a', -⟩ | ⟨-, -, e'⟩ | ⟨-, -, e', c', -⟩
    · linarith
    · rw [e, e']
    · have : 2 ≤ ⌊(n : ℝ) * arg θ n v ^ alpha θ⌋₊ := Nat.le_floor (by exact_mod_cast c')
      omega
  · rcases next_cases h1 hn base hv with ⟨a', -⟩ | ⟨-, b', -⟩ | ⟨-, -, e', -, -⟩
    · linarith
    · linarith
    · rw [e, e']
      apply Nat.add_le_add_left
      apply Nat.floor_le_floor
      obtain ⟨hl, -⟩ := arg_bounds h1 b hu a
      obtain ⟨-, -, hp, he⟩ := eta_parts h1 b
      apply mul_le_mul_of_nonneg_left _ (Nat.cast_nonneg n)
      apply Real.rpow_le_rpow (hp.le.trans hl) _ (alpha_pos h1).le
      unfold arg
      nlinarith

/-- The smallest item is drawn exactly for the random numbers below 1 / zeta(n), and the second for the next 2^-theta / zeta(n): the two most frequent items
have the frequencies of the Zipf distribution. -/
theorem C126_frequent_partial (h1 : θ < 1) {n : ℕ} (hn : 2 ≤ n) (base : ℕ) {u : ℝ} (hu : u < 1) :
    (next base n θ u = base ↔ u < 1 / zeta θ n) ∧
    (next base n θ u = base + 1 ↔ 1 / zeta θ n ≤ u ∧ u < 1 / zeta θ n + (1 / 2 : ℝ) ^ θ / zeta θ n) := by
  have hz := zeta_pos (θ := θ) (n := n) (by omega)
  have hh : (0 : ℝ) < (1 / 2 : ℝ) ^ θ := Real.rpow_pos_of_pos (by norm_num) θ
  rw [← add_div, lt_div_iff₀ hz, div_le_iff₀ hz, lt_div_iff₀ hz]
  rcases next_cases h1 hn base hu with ⟨a, e⟩ | ⟨a, b, e⟩ | ⟨a, b, e, c, -⟩
  · rw [e]
    refine ⟨⟨fun _ => a, fun _ => rfl⟩, ⟨fun h => by omega, fun h => by linarith [h.1]⟩⟩
  · rw [e]
    refine ⟨⟨fun h => by omega, fun h => by linarith⟩, ⟨fun _ => ⟨a, b⟩, fun _ => rfl⟩⟩
  · have : 2 ≤ ⌊(n : ℝ) * arg θ n u ^ alpha θ⌋₊ := Nat.le_floor (by exact_mod_cast c)
    refine ⟨⟨fun h => by omega, fun h => by linarith⟩, ⟨fun h => by omega, fun h => by linarith [h.2]⟩⟩

/-- Every item can be drawn. -/
theorem C126_every_item_partial (h1 : θ < 1) {n : ℕ} (hn : 2 ≤ n) (base k : ℕ) (hb : base ≤ k) (hk : k ≤ base + n - 1) :
    ∃ u : ℝ, 0 ≤ u ∧ u < 1 ∧ next base n θ u = k := by
  have hz := zeta_pos (θ := θ) (n := n) (by omega)
  have hz1 : zeta θ 1 < zeta θ n := zeta_lt (by omega)
  rw [zeta_one] at hz1
  have hh : (0 : ℝ) < (1 / 2 : ℝ) ^ θ := Real.rpow_pos_of_pos (by norm_num) θ
  obtain ⟨j, rfl⟩ := Nat.exists_eq_add_of_le hb
  rcases (by omega : j = 0 ∨ j = 1 ∨ 2 ≤ j) with rfl | rfl | hj
  · exact ⟨0, le_refl _, one_pos, ((C126_frequent_partial h1 hn base one_pos).1).2 (one_div_pos.2 hz)⟩
  · have hlt : 1 / zeta θ n < 1 := by rw [div_lt_one hz]; exact hz1
    refine ⟨1 / zeta θ n, (one_div_pos.2 hz).le, hlt, ((C126_frequent_partial h1 hn base hlt).2).2 ⟨le_refl _, ?_⟩⟩
    have := div_pos hh hz
    linarith
  · have h3 : 3 ≤ n := by omega
    obtain ⟨a, b, hp, he⟩ := eta_parts h1 h3
    have hn0 : (0 : ℝ) < n := by exact_mod_cast (by omega : 0 < n)
    have hjn : (j : ℝ) / n < 1 := by rw [div_lt_one hn0]; exact_mod_cast (by omega : j < n)
    have hj0 : (0 : ℝ) ≤ (j : ℝ) / n := by positivity
    have hq1 : ((j : ℝ) / n) ^ (1 - θ) < 1 := Real.rpow_lt_one hj0 hjn (by linarith)
    have hq2 : (2 / (n : ℝ)) ^ (1 - θ) ≤ ((j : ℝ) / n) ^ (1 - θ) := by
      apply Real.rpow_le_rpow (by positivity) _ (by linarith)
      apply div_le_div_of_nonneg_right _ hn0.le
      exact_mod_cast hj
    -- the random number that gives j
    let u : ℝ := 1 - (1 - ((j : ℝ) / n) ^ (1 - θ)) / eta θ n
    have hu1 : u < 1 := by
      have : 0 < (1 - ((j : ℝ) / n) ^ (1 - θ)) / eta θ n := div_pos (by linarith) he
      simp only [u]; linarith
    have hmul : eta θ n * (1 - u) = 1 - ((j : ℝ) / n) ^ (1 - θ) := by
      simp only [u]; rw [sub_sub_cancel, mul_div_cancel₀ _ he.ne']
    have heq : eta θ n * (1 - zeta θ 2 / zeta θ n) = 1 - (2 / (n : ℝ)) ^ (1 - θ) := by
      unfold eta; exact div_mul_cancel₀ _ a.ne'
    have hu2 : zeta θ 2 / zeta θ n ≤ u := by
      by_contra hc
      have : eta θ n * (1 - zeta θ 2 / zeta θ n) < eta θ n * (1 - u) := mul_lt_mul_of_pos_left (by linarith) he
      linarith
    have hz2 : 0 < zeta θ 2 := zeta_pos (by omega)
    have hthird : 1 + (1 / 2 : ℝ) ^ θ ≤ u * zeta θ n := by
      rw [← zeta_two, ← div_le_iff₀ hz]; exact hu2
    refine ⟨u, (div_pos hz2 hz).le.trans hu2, hu1, ?_⟩
    rcases next_cases h1 hn base hu1 with ⟨a', -⟩ | ⟨-, b', -⟩ | ⟨-, -, e, -, -⟩
    · linarith
    · linarith
    · rw [e]
      have harg : arg θ n u = ((j : ℝ) / n) ^ (1 - θ) := by unfold arg; linarith
      rw [harg, pow_alpha h1 hj0, mul_div_cancel₀ _ hn0.ne', Nat.floor_natCast]

/-- With `double` the smallest item is returned rounded: from 2^53 + 1 on, items below the smallest one can be returned. -/
theorem C126_rounds : firstItem (2 ^ 53 + 1) < 2 ^ 53 + 1 := by decide

/-- Up to 2^53 it is exact. -/
theorem C126_first_exact (base : ℕ) (h : base ≤ 2 ^ 53) : firstItem base = base := by
  unfold firstItem toDouble
  split
  · rfl
  · have : base = 2 ^ 53 := by omega
    subst this; decide

/-- 100 items from 5 on with the constant 0.99. -/
theorem C126_case : ∃ u : ℝ, 0 ≤ u ∧ u < 1 ∧ next 5 100 0.99 u = 104 := C126_every_item_partial (by norm_num) (by norm_num) 5 104 (by norm_num) (by norm_num)

end Verif.Zipf
