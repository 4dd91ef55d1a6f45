import Verif.Load.Spec
/-!
# C136: the idle ratio and the periodic tasks of a proactor
-/
namespace Verif.Load

theorem sub64_le {a b : Nat} (h : b ≤ a) (ha : a < 2 ^ 64) : sub64 a b = a - b := by
  unfold sub64; omega

theorem add64_lt {a b : Nat} (h : a + b < 2 ^ 64) : add64 a b = a + b := Nat.mod_eq_of_lt h

theorem total_le {period t0 : Nat} (newer older : List (Nat × Nat)) (hv : Valid period t0 (newer ++ older)) :
    total newer + lastEnd t0 older ≤ lastEnd t0 (newer ++ older) := by
  induction newer with
  | nil => simp [total]
  | cons w h ih =>
    have := ih hv.2.2.2
    have h1 : lastEnd t0 (h ++ older) ≤ w.1 := hv.1
    have h2 : w.1 ≤ w.2 := hv.2.1
    have h3 : total (w :: h) = (w.2 - w.1) + total h := by simp [total]
    have h4 : lastEnd t0 (w :: h ++ older) = w.2 := rfl
    rw [h3, h4]
    omega

theorem valid_suffix {period t0 : Nat} (a b : List (Nat × Nat)) (hv : Valid period t0 (a ++ b)) : Valid period t0 b := by
  induction a with
  | nil => exact hv
  | cons w h ih => exact ih hv.2.2.2

/-- What is measured: a window of the past, and since then less than a period. -/
def Window (period t0 : Nat) (h : List (Nat × Nat)) (m : Meas) : Prop :=
  ∃ newer rest, h = newer ++ rest ∧ m.start = lastEnd t0 rest ∧ m.idle = total newer ∧
    lastEnd t0 h ≤ m.start + period ∧
    ((rest = [] ∧ m.num = 0 ∧ m.den = 1) ∨
      ∃ win older, rest = win ++ older ∧ win ≠ [] ∧ m.num = total win ∧
        m.den = lastEnd t0 rest - lastEnd t0 older ∧ period < m.den)

theorem window (per10 t0 : Nat) (hp : per10 * 500000 < 2 ^ 64) (h : List (Nat × Nat))
    (hv : Valid (per10 * 500000) t0 h) : Window (per10 * 500000) t0 h (measured per10 t0 h) := by
  induction h with
  | nil =>
    exact ⟨[], [], rfl, rfl, rfl, Nat.le_add_right _ _, .inl ⟨rfl, rfl, rfl⟩⟩
  | cons w h ih =>
    have hv0 := hv
    obtain ⟨h1, h2, h3, h4⟩ := hv
    obtain ⟨newer, rest, he, hs, hi, hle, hcase⟩ := ih h4
    have htot := total_le newer rest (he ▸ h4)
    have hrest : Valid (per10 * 500000) t0 (newer ++ rest) := he ▸ h4
    rw [← he] at htot
    have hidle : add64 (measured per10 t0 h).idle (sub64 w.2 w.1) = total (w :: newer) := by
      rw [sub64_le h2 (by omega), hi]
      unfold total at htot ⊢
      rw [List.map_cons, List.sum_cons, add64_lt (by omega)]
      omega
    have hst : (measured per10 t0 h).start ≤ lastEnd t0 h := by rw [hs]; omega
    have hadd : add64 (measured per10 t0 h).start (per10 * 500000 % 2 ^ 64) =
        (measured per10 t0 h).start + per10 * 500000 := by
      rw [Nat.mod_eq_of_lt hp]
      exact add64_lt (by omega)
    unfold measured Meas.idleEnd
    dsimp only
    rw [hidle, hadd]
    by_cases hc : w.2 > (measured per10 t0 h).start + per10 * 500000
    · rw [if_pos hc]
      refine ⟨[], w :: h, rfl, rfl, rfl, Nat.le_add_right _ _, .inr ⟨w :: newer, rest, ?_, by simp, rfl, ?_, ?_⟩⟩
      · rw [he]; rfl
      · dsimp only
        rw [sub64_le (by omega) (by omega), hs]
        rfl
      · dsimp only
        rw [sub64_le (by omega) (by omega)]
        omega
    · rw [if_neg hc]
      refine ⟨w :: newer, rest, by rw [he]; rfl, hs, rfl, ?_, hcase⟩
      show w.2 ≤ (measured per10 t0 h).start + per10 * 500000
      omega

/-- C136, the idle ratio, for a counter that does not go back (see `C136_back_refuted`): it is 0, or the
part of a window of the past that was spent waiting. The window is longer than the period (5 seconds),
and began and ended at the end of a wait; the waits after it end within a period of it. -/
theorem C136_ratio_partial (per10 t0 : Nat) (hp : per10 * 500000 < 2 ^ 64) (h : List (Nat × Nat))
    (hv : Valid (per10 * 500000) t0 h) :
    ((measured per10 t0 h).num = 0 ∧ (measured per10 t0 h).den = 1 ∧ lastEnd t0 h ≤ t0 + per10 * 500000) ∨
    ∃ newer win older, h = newer ++ win ++ older ∧ win ≠ [] ∧
      (measured per10 t0 h).num = total win ∧
      (measured per10 t0 h).den = lastEnd t0 (win ++ older) - lastEnd t0 older ∧
      per10 * 500000 < (measured per10 t0 h).den ∧
      lastEnd t0 h ≤ lastEnd t0 (win ++ older) + per10 * 500000 := by
  obtain ⟨newer, rest, he, hs, hi, hle, hcase⟩ := window per10 t0 hp h hv
  rcases hcase with ⟨hr, hn, hd⟩ | ⟨win, older, hr, hne, hn, hd, hlt⟩
  · left
    refine ⟨hn, hd, ?_⟩
    rw [hs, hr] at hle
    exact hle
  · right
    refine ⟨newer, win, older, by rw [he, hr, List.append_assoc], hne, hn, ?_, hlt, ?_⟩
    · rw [hd, hr]
    · rw [← hr, ← hs]; exact hle

/-- C136, so the ratio is between 0 and 1 and never divides by zero. -/
theorem C136_between (per10 t0 : Nat) (hp : per10 * 500000 < 2 ^ 64) (h : List (Nat × Nat))
    (hv : Valid (per10 * 500000) t0 h) :
    (measured per10 t0 h).num ≤ (measured per10 t0 h).den ∧ 0 < (measured per10 t0 h).den := by
  rcases C136_ratio_partial per10 t0 hp h hv with ⟨h1, h2, _⟩ | ⟨newer, win, older, he, _, hn, hd, hlt, _⟩
  · rw [h1, h2]; exact ⟨Nat.zero_le _, Nat.one_pos⟩
  · refine ⟨?_, by omega⟩
    have hv2 : Valid (per10 * 500000) t0 (win ++ older) := by
      rw [he, List.append_assoc] at hv
      exact valid_suffix newer _ hv
    have := total_le win older hv2
    rw [hn, hd]
    omega

/-- The full property is false of the code when the counter goes back during a wait: the idle ratio is
then far above 1. -/
theorem C136_back_refuted :
    (measured 10000 1000 [(20000000000, 20000000010), (900, 100)]).num >
      1000000 * (measured 10000 1000 [(20000000000, 20000000010), (900, 100)]).den := by
  decide +kernel

theorem calls_cons (per10 last t : Nat) (ts : List Nat) :
    calls per10 last (t :: ts) =
      ((runL2 per10 last t).1 :: (calls per10 (runL2 per10 last t).2 ts).1, (calls per10 (runL2 per10 last t).2 ts).2) := rfl

/-- C136, the periodic tasks, for a counter that does not go back: they run not more often than every 10
microseconds. -/
theorem C136_not_too_often (per10 : Nat) (ts : List Nat) : ∀ last, (last :: ts).Pairwise (· ≤ ·) →
    (last :: ranAt ts (calls per10 last ts).1).Pairwise (fun a b => a + per10 ≤ b) := by
  induction ts with
  | nil => intro last _; simp [ranAt]
  | cons t ts ih =>
    intro last hm
    have hlt : last ≤ t := (List.pairwise_cons.mp hm).1 t List.mem_cons_self
    have htail := (List.pairwise_cons.mp hm).2
    have hlast : (last :: ts).Pairwise (· ≤ ·) := by
      refine List.pairwise_cons.mpr ⟨fun x hx => (List.pairwise_cons.mp hm).1 x (List.mem_cons_of_mem _ hx), ?_⟩
      exact (List.pairwise_cons.mp htail).2
    rw [calls_cons]
    unfold runL2
    simp only [if_neg (show ¬ t < last by omega)]
    by_cases hc : t ≥ last + per10
    · simp only [if_pos hc, ranAt, if_true]
      have h2 := ih t htail
      refine List.pairwise_cons.mpr ⟨?_, h2⟩
      intro x hx
      rcases List.mem_cons.mp hx with hx | hx
      · rw [hx]; exact hc
      · have := (List.pairwise_cons.mp h2).1 x hx
        omega
    · simp only [if_neg hc, ranAt, Bool.false_eq_true, if_false]
      exact ih last hlast

/-- C136, and they do run: a call that comes 10 microseconds or more after the last run runs them, and
then `ShouldPollL2Tasks` holds again after 2.56 milliseconds and not before. -/
theorem C136_runs (per10 last now : Nat) (hm : last + per10 ≤ now) :
    runL2 per10 last now = (true, now) ∧ ∀ t, shouldPoll per10 now t = true ↔ now + 256 * per10 < t := by
  refine ⟨?_, fun t => ?_⟩
  · unfold runL2
    simp only [if_neg (show ¬ now < last by omega)]
    rw [if_pos hm]
  · unfold shouldPoll
    rw [decide_eq_true_iff]

theorem calls_last (per10 : Nat) (ts : List Nat) : ∀ last, (last :: ts).Pairwise (· ≤ ·) →
    (calls per10 last ts).2 = (ranAt ts (calls per10 last ts).1).getLast?.getD last := by
  induction ts with
  | nil => intro last _; simp [calls, ranAt]
  | cons t ts ih =>
    intro last hm
    have hlt : last ≤ t := (List.pairwise_cons.mp hm).1 t List.mem_cons_self
    have htail := (List.pairwise_cons.mp hm).2
    have hlast : (last :: ts).Pairwise (· ≤ ·) := by
      refine List.pairwise_cons.mpr ⟨fun x hx => (List.pairwise_cons.mp hm).1 x (List.mem_cons_of_mem _ hx), ?_⟩
      exact (List.pairwise_cons.mp htail).2
    rw [calls_cons]
    unfold runL2
    simp only [if_neg (show ¬ t < last by omega)]
    by_cases hc : t ≥ last + per10
    · simp only [if_pos hc, ranAt, if_true]
      rw [ih t htail, List.getLast?_cons]
      rfl
    · simp only [if_neg hc, ranAt, Bool.false_eq_true, if_false]
      exact ih last hlast

theorem calls_snoc (per10 : Nat) (ts : List Nat) (t : Nat) : ∀ last,
    (calls per10 last (ts ++ [t])).1 = (calls per10 last ts).1 ++ [(runL2 per10 (calls per10 last ts).2 t).1] := by
  induction ts with
  | nil => intro last; rfl
  | cons u ts ih =>
    intro last
    rw [List.cons_append, calls_cons, calls_cons, ih]
    rfl

theorem ranAt_mem (ts : List Nat) : ∀ bs x, x ∈ ranAt ts bs → x ∈ ts := by
  induction ts with
  | nil => intro bs x h; simp [ranAt] at h
  | cons t ts ih =>
    intro bs x h
    cases bs with
    | nil => simp [ranAt] at h
    | cons b bs =>
      cases b
      · exact List.mem_cons_of_mem _ (ih bs x h)
      · rcases List.mem_cons.mp h with h | h
        · exact h ▸ List.mem_cons_self
        · exact List.mem_cons_of_mem _ (ih bs x h)

/-- C136, in any history of calls with a counter that does not go back, a call runs the tasks exactly
when 10 microseconds have passed since the last call that ran them (`last` if there was none). -/
theorem C136_exactly (per10 last : Nat) (ts : List Nat) (t : Nat) (hm : (last :: (ts ++ [t])).Pairwise (· ≤ ·)) :
    (calls per10 last (ts ++ [t])).1 =
      (calls per10 last ts).1 ++
        [decide ((ranAt ts (calls per10 last ts).1).getLast?.getD last + per10 ≤ t)] := by
  have hm' : ((last :: ts) ++ [t]).Pairwise (· ≤ ·) := hm
  rw [List.pairwise_append] at hm'
  obtain ⟨h1, _, h3⟩ := hm'
  rw [calls_snoc, calls_last per10 ts last h1]
  have hle : (ranAt ts (calls per10 last ts).1).getLast?.getD last ≤ t := by
    cases hg : (ranAt ts (calls per10 last ts).1).getLast? with
    | none => exact h3 last List.mem_cons_self t List.mem_cons_self
    | some x =>
      have hx := ranAt_mem ts _ x (List.mem_of_getLast? hg)
      exact h3 x (List.mem_cons_of_mem _ hx) t List.mem_cons_self
  generalize (ranAt ts (calls per10 last ts).1).getLast?.getD last = r at hle
  unfold runL2
  simp only [if_neg (show ¬ t < r by omega)]
  by_cases hc : t ≥ r + per10
  · rw [if_pos hc, decide_eq_true hc]
  · rw [if_neg hc, decide_eq_false hc]

/-- C136, when the counter has gone back the tasks are not lost: every call runs them. -/
theorem C136_back_runs (per10 last now : Nat) (h : now < last) : runL2 per10 last now = (true, last + per10) := by
  unfold runL2
  rw [if_pos h]
  simp

/-- The full property is false of the code after the counter went back: the tasks run at every call, and
as long as the calls come more often than every 10 microseconds on average this never ends, however many
calls there are. -/
theorem C136_often_refuted (per10 : Nat) (ts : List Nat) : ∀ last,
    (∀ i (h : i < ts.length), ts[i] < last + i * per10) →
    calls per10 last ts = (List.replicate ts.length true, last + ts.length * per10) := by
  induction ts with
  | nil => intro last _; simp [calls]
  | cons t ts ih =>
    intro last h
    have h0 : t < last := by
      have := h 0 (by simp)
      simpa using this
    rw [calls_cons, C136_back_runs per10 last t h0]
    dsimp only
    rw [ih (last + per10)]
    · rw [List.length_cons, List.replicate_succ, Nat.add_mul]
      simp only [Prod.mk.injEq, true_and]
      omega
    · intro i hi
      have := h (i + 1) (by simpa using hi)
      rw [List.getElem_cons_succ, Nat.add_mul] at this
      omega

/-- The full property is false of the code: while the counter is behind the last run, `ShouldPollL2Tasks`
never holds, so a loop that is busy with completions does not look at sleeping fibers. -/
theorem C136_poll_refuted (per10 last now : Nat) (h : now ≤ last) : shouldPoll per10 last now = false := by
  unfold shouldPoll
  rw [decide_eq_false_iff_not]
  omega

/-- A concrete history: three waits, a window of 6 units of 10^9 cycles, of which half was waiting. -/
theorem C136_case :
    Valid (10000 * 500000) 1000 [(7000000000, 7000001000), (4000001000, 6000001000), (1000, 1000001000)] ∧
    measured 10000 1000 [(7000000000, 7000001000), (4000001000, 6000001000), (1000, 1000001000)] =
      { start := 6000001000, idle := 1000, num := 3000000000, den := 6000000000 } := by
  refine ⟨by simp [Valid, lastEnd], by decide +kernel⟩

/-- Calls that run and calls that do not. -/
theorem C136_case_calls : calls 10 100 [105, 112, 115, 130] = ([false, true, false, true], 130) ∧
    calls 10 1000 [5, 6, 7] = ([true, true, true], 1030) := by decide

end Verif.Load
