import Verif.Elapsed.Spec
/-!
# C139: durations in words
-/
namespace Verif.Elapsed

theorem units : us = 1000 ∧ ms = 1000000 ∧ sec = 1000000000 ∧ minute = 60000000000 ∧ hour = 3600000000000 ∧
    day = 86400000000000 ∧ month = 2629746000000000 ∧ year = 31556952000000000 := by decide

/-- C139, the number: the sign is kept, and what is printed (before rounding to three digits) is the
duration; only from 999.5 to 1000 microseconds it is 1 millisecond. -/
theorem C139_value (v : Int) : (shown v).neg = decide (v < 0) ∧
    ((shown v).num = v.natAbs ∨ ((shown v).num = ms ∧ (shown v).unit = ms ∧ 1999 * us ≤ 2 * v.natAbs ∧ v.natAbs < ms)) := by
  refine ⟨rfl, ?_⟩
  obtain ⟨h1, h2, h3, h4, h5, h6, h7, h8⟩ := units
  unfold shown
  dsimp only
  unfold pick
  dsimp only
  rw [h1, h2, h3, h4, h5, h6, h7, h8]
  generalize v.natAbs = t
  repeat' split
  all_goals dsimp only
  all_goals omega

/-- C139, the unit, below 999.5 years and apart from the first half day of the second month (see
`C139_month_refuted` and `C139_years_refuted`): at least one of the unit is shown (rounded), except for durations
below a microsecond, the exponent notation is not used, and the next unit is larger than what is shown. -/
theorem C139_unit_partial (v : Int) (h : 2 * v.natAbs < 1999 * year) (hm : v.natAbs < 30 * day ∨ month ≤ v.natAbs) :
    (us ≤ v.natAbs → AtLeastOne (shown v).num (shown v).unit) ∧ ¬ Exponent (shown v).num (shown v).unit ∧
    ((shown v).unit = us ∧ (shown v).num < ms ∨ (shown v).unit = ms ∧ (shown v).num < sec ∨
      (shown v).unit = sec ∧ (shown v).num < minute ∨ (shown v).unit = minute ∧ (shown v).num < hour ∨
      (shown v).unit = hour ∧ (shown v).num < day ∨ (shown v).unit = day ∧ (shown v).num < month ∨
      (shown v).unit = month ∧ (shown v).num < year ∨ (shown v).unit = year) := by
  obtain ⟨h1, h2, h3, h4, h5, h6, h7, h8⟩ := units
  rw [h8] at h
  rw [h6, h7] at hm
  unfold shown Exponent AtLeastOne
  dsimp only
  unfold pick
  dsimp only
  rw [h1, h2, h3, h4, h5, h6, h7, h8]
  generalize v.natAbs = t at *
  repeat' split
  all_goals dsimp only
  all_goals omega

/-- The full property is false of the code: from 30 to about 30.42 days less than one month is
shown, also after rounding. -/
theorem C139_month_refuted (v : Int) (h1 : 30 * day ≤ v.natAbs) (h2 : 2000 * v.natAbs < 1999 * month) :
    (shown v).unit = month ∧ ¬ AtLeastOne (shown v).num (shown v).unit := by
  obtain ⟨e1, e2, e3, e4, e5, e6, e7, e8⟩ := units
  rw [e6] at h1
  rw [e7] at h2
  unfold shown AtLeastOne
  dsimp only
  unfold pick
  dsimp only
  rw [e1, e2, e3, e4, e5, e6, e7, e8]
  generalize v.natAbs = t at *
  repeat' split
  all_goals dsimp only
  all_goals omega

/-- The full property is false of the code: just below a minute and an hour, 60 of the smaller unit are
shown, although for micro- and milliseconds the code takes care of this. -/
theorem C139_sixty_refuted (v : Int) (x : Nat) (u next : Nat) (hu : u = sec ∧ next = minute ∨ u = minute ∧ next = hour)
    (h1 : 5995 * u < 100 * v.natAbs) (h2 : v.natAbs < next) (hx : Tenths (shown v).num (shown v).unit x) :
    (shown v).unit = u ∧ x = 600 := by
  obtain ⟨e1, e2, e3, e4, e5, e6, e7, e8⟩ := units
  have key : (shown v).unit = u ∧ (shown v).num = v.natAbs := by
    unfold shown
    dsimp only
    unfold pick
    dsimp only
    rw [e3, e4, e5] at hu
    rw [e1, e2, e3, e4, e5, e6, e7, e8]
    generalize v.natAbs = t at *
    repeat' split
    all_goals dsimp only
    all_goals omega
  refine ⟨key.1, ?_⟩
  rw [key.1, key.2] at hx
  unfold Tenths at hx
  rw [e3, e4, e5] at hu
  rcases hu with ⟨rfl, rfl⟩ | ⟨rfl, rfl⟩ <;> omega

/-- The full property is false of the code: from 999.5 years on the exponent notation is used. -/
theorem C139_years_refuted (v : Int) (h : 1999 * year ≤ 2 * v.natAbs) : Exponent (shown v).num (shown v).unit := by
  obtain ⟨e1, e2, e3, e4, e5, e6, e7, e8⟩ := units
  rw [e8] at h
  unfold shown Exponent
  dsimp only
  unfold pick
  dsimp only
  rw [e1, e2, e3, e4, e5, e6, e7, e8]
  generalize v.natAbs = t at *
  repeat' split
  all_goals dsimp only
  all_goals omega

/-- The examples in strings/human_readable.h: 1 ms, 10 s, 10.8 days, 1.25 years and -10 s. -/
theorem C139_case : shown 1000000 = ⟨false, 1000000, ms⟩ ∧ shown 10000000000 = ⟨false, 10 * sec, sec⟩ ∧
    shown 933120000000000 = ⟨false, 933120 * sec, day⟩ ∧ shown 39420000000000000 = ⟨false, 39420000 * sec, year⟩ ∧
    shown (-10000000000) = ⟨true, 10 * sec, sec⟩ ∧ shown 999700 = ⟨false, ms, ms⟩ ∧
    Tenths 59960000000 sec 600 ∧ shown 59960000000 = ⟨false, 59960000000, sec⟩ := by
  unfold Tenths; decide

/-- 30 days meet the hypotheses of `C139_month_refuted`, 2000 years those of `C139_years_refuted`. -/
theorem C139_case_refuted : (30 * day ≤ (30 * day : Int).natAbs ∧ 2000 * (30 * day : Int).natAbs < 1999 * month) ∧
    1999 * year ≤ 2 * (2000 * year : Int).natAbs := by decide

end Verif.Elapsed
