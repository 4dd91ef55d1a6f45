import Verif.HumanNum.Spec
/-!
# C137: numbers in words
-/
namespace Verif.HumanNum

theorem pick_zero (fuel n unit : Nat) (h : n < 1000000) : pick (fuel + 1) n unit = some (n, unit) := by
  unfold pick
  rw [if_neg (by omega)]

theorem pick_step (fuel n unit : Nat) (h : 1000000 ≤ n) (hu : unit < 4) :
    pick (fuel + 1) n unit = pick fuel (n / 1000) (unit + 1) := by
  rw [pick, if_pos h, if_pos (by omega)]

theorem pick_spec (n : Nat) (h1 : 1000 ≤ n) (h2 : n < 10 ^ 15) : ∃ m u, pick 8 n 0 = some (m, u) ∧ u ≤ 3 ∧
    1000 ≤ m ∧ m < 1000000 ∧ m * 1000 ^ u ≤ n ∧ n < (m + 1) * 1000 ^ u := by
  by_cases a : n < 10 ^ 6
  · exact ⟨n, 0, pick_zero 7 n 0 a, by omega, h1, a, by omega, by omega⟩
  by_cases b : n < 10 ^ 9
  · refine ⟨n / 1000, 1, ?_, by omega, by omega, by omega, by omega, by omega⟩
    rw [pick_step 7 n 0 (by omega) (by omega), pick_zero 6 _ _ (by omega)]
  by_cases c : n < 10 ^ 12
  · refine ⟨n / 1000 / 1000, 2, ?_, by omega, by omega, by omega, by omega, by omega⟩
    rw [pick_step 7 n 0 (by omega) (by omega), pick_step 6 _ _ (by omega) (by omega), pick_zero 5 _ _ (by omega)]
  · refine ⟨n / 1000 / 1000 / 1000, 3, ?_, by omega, by omega, by omega, by omega, by omega⟩
    rw [pick_step 7 n 0 (by omega) (by omega), pick_step 6 _ _ (by omega) (by omega),
      pick_step 5 _ _ (by omega) (by omega), pick_zero 4 _ _ (by omega)]

/-- C137: a number below 1000 is printed as it is. -/
theorem C137_small (round : Nat → Nat) (v : Int) (h : v.natAbs < 1000) : shown round v = .plain (decide (v < 0)) v.natAbs := by
  unfold shown
  rw [if_neg (by omega)]
  simp only [if_pos h]

/-- C137, from 1000 to 10^15 (the largest unit is a trillion; see also `C137_thousand_refuted`): the
CHECK never fails, the sign is right, the unit is the largest that fits, and the printed number times its
unit is the value up to 6 thousandths of the unit. -/
theorem C137_scaled_partial (round : Nat → Nat) (hr : Nearest round) (v : Int) (h1 : 1000 ≤ v.natAbs)
    (h2 : v.natAbs < 10 ^ 15) :
    ∃ h u, shown round v = .scaled (decide (v < 0)) h u ∧ u ≤ 3 ∧
      1000 ^ (u + 1) ≤ v.natAbs ∧ v.natAbs < 1000 ^ (u + 2) ∧
      1000 * (h * 1000 ^ (u + 1)) ≤ 100 * (1000 * v.natAbs + 5 * 1000 ^ (u + 1)) ∧
      100 * (1000 * v.natAbs) < 1000 * (h * 1000 ^ (u + 1)) + 100 * (6 * 1000 ^ (u + 1)) := by
  obtain ⟨m, u, hp, hu, hm1, hm2, hle, hlt⟩ := pick_spec v.natAbs h1 h2
  obtain ⟨r1, r2⟩ := hr m
  refine ⟨round m, u, ?_, hu, ?_⟩
  · unfold shown
    rw [if_neg (by omega)]
    simp only [if_neg (show ¬ v.natAbs < 1000 by omega), if_neg (show ¬ v.natAbs ≥ 10 ^ 15 by omega), hp]
  · generalize v.natAbs = n at *
    generalize round m = h at *
    have : u = 0 ∨ u = 1 ∨ u = 2 ∨ u = 3 := by omega
    rcases this with rfl | rfl | rfl | rfl <;> simp only [Nat.reduceAdd, Nat.reducePow] at * <;> omega

/-- C137: so the printed number is off by less than 0.6 percent of the value. -/
theorem C137_close (round : Nat → Nat) (hr : Nearest round) (v : Int) (h1 : 1000 ≤ v.natAbs)
    (h2 : v.natAbs < 10 ^ 15) :
    ∃ h u, shown round v = .scaled (decide (v < 0)) h u ∧
      1000 * (h * 1000 ^ (u + 1)) ≤ 100 * (1006 * v.natAbs) ∧
      100 * (994 * v.natAbs) < 1000 * (h * 1000 ^ (u + 1)) := by
  obtain ⟨h, u, e, _, a, _, b, c⟩ := C137_scaled_partial round hr v h1 h2
  exact ⟨h, u, e, by omega, by omega⟩

/-- The full property is false of the code: just below the next unit the number is shown as 1000.00 of
the smaller one (999999 as 1000.00k), whatever the rounding of ties. -/
theorem C137_thousand_refuted (round : Nat → Nat) (hr : Nearest round) (u : Nat) (hu : u ≤ 3) (v : Int)
    (h1 : 999996 * 1000 ^ u ≤ v.natAbs) (h2 : v.natAbs < 1000000 * 1000 ^ u) :
    shown round v = .scaled (decide (v < 0)) 100000 u := by
  have hu' : u = 0 ∨ u = 1 ∨ u = 2 ∨ u = 3 := by omega
  have hb : 1000 ≤ v.natAbs ∧ v.natAbs < 10 ^ 15 := by
    rcases hu' with rfl | rfl | rfl | rfl <;> simp only [Nat.reducePow] at * <;> omega
  obtain ⟨m, w, hp, hw, hm1, hm2, hle, hlt⟩ := pick_spec v.natAbs hb.1 hb.2
  have hmw : w = u ∧ 999996 ≤ m := by
    have hw' : w = 0 ∨ w = 1 ∨ w = 2 ∨ w = 3 := by omega
    clear hp hb hr hu hw
    generalize v.natAbs = n at *
    rcases hu' with rfl | rfl | rfl | rfl <;> rcases hw' with rfl | rfl | rfl | rfl <;>
      simp only [Nat.reducePow] at h1 h2 hle hlt <;> constructor <;> omega
  obtain ⟨r1, r2⟩ := hr m
  have hround : round m = 100000 := by omega
  unfold shown
  rw [if_neg (by omega)]
  simp only [if_neg (show ¬ v.natAbs < 1000 by omega), if_neg (show ¬ v.natAbs ≥ 10 ^ 15 by omega), hp, hround, hmw.1]

/-- The full property is false of the code: the smallest number has no negation, and that is undefined. -/
theorem C137_min_refuted (round : Nat → Nat) : shown round (-2 ^ 63) = .undef := by
  unfold shown
  rw [if_pos rfl]

/-- C137: every other number of 10^15 and more is left to the exponent notation, with its sign. -/
theorem C137_large (round : Nat → Nat) (v : Int) (hv : v ≠ -2 ^ 63) (h : 10 ^ 15 ≤ v.natAbs) :
    shown round v = .expo (decide (v < 0)) v.natAbs := by
  unfold shown
  rw [if_neg hv]
  simp only [if_neg (show ¬ v.natAbs < 1000 by omega), if_pos h]

/-- Rounding halves up is nearest, and concrete numbers: 1200000 is 1.20M. -/
theorem C137_case : Nearest (fun m => (m + 5) / 10) ∧
    shown (fun m => (m + 5) / 10) 1200000 = .scaled false 120 1 ∧
    shown (fun m => (m + 5) / 10) (-7654321987654) = .scaled true 765 3 ∧
    shown (fun m => (m + 5) / 10) 999999 = .scaled false 100000 0 := by
  refine ⟨fun m => by dsimp only; omega, by decide, by decide, by decide⟩

end Verif.HumanNum
