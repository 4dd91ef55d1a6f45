import Verif.SwitchStat.Spec
/-!
# C135: the statistics of fiber switches
-/
namespace Verif.SwitchStat
open Verif.Common

theorem sub64_le {a b : Nat} (h : b ≤ a) (ha : a < 2 ^ 64) : sub64 a b = a - b := by
  unfold sub64; omega

theorem since_le {t0 : Nat} {h : List Ev} (hv : Valid t0 h) : since t0 h ≤ last t0 h := by
  induction h with
  | nil => exact Nat.le_refl _
  | cons e h ih =>
    have := ih hv.2.2.2
    have h1 := hv.1
    cases e with
    | ready f t => simp only [since]; omega
    | switch f t => exact Nat.le_refl _
    | wake t => exact Nat.le_refl _

theorem readyAt_le {t0 : Nat} {h : List Ev} (hv : Valid t0 h) (f : Nat) : readyAt t0 f h ≤ last t0 h := by
  induction h with
  | nil => exact Nat.le_refl _
  | cons e h ih =>
    have := ih hv.2.2.2
    have h1 := hv.1
    cases e with
    | ready g t =>
      simp only [readyAt]
      split
      · exact Nat.le_refl _
      · omega
    | switch g t => simp only [readyAt]; omega
    | wake t => simp only [readyAt]; omega

/-- The state agrees with the history. -/
structure Agree (perMs t0 : Nat) (h : List Ev) (s : St) : Prop where
  active : s.active = who h
  cpu : (s.fib s.active).cpu = since t0 h
  ready : ∀ f, (s.fib f).ready = readyAt t0 f h
  preempt : ∀ f, (s.fib f).preempt = (suspended h).count f
  epoch : s.epoch = (suspended h).length
  delay : s.delay = (waits t0 h).sum
  cnt : s.longCnt = (runs t0 h).countP (fun r => decide (r > perMs))
  sum : s.longUsec = (((runs t0 h).filter (fun r => decide (r > perMs))).map (usec perMs)).sum
  seq : s.seq = (recent h).length % 2 ^ 32
  names : ∀ k x, k < 8 → (recent h)[k]? = some x → s.names (((recent h).length - 1 - k) % 8) = x

theorem agree (perMs t0 : Nat) (hp : 0 < perMs) (h : List Ev) (hv : Valid t0 h) :
    ∃ s, after perMs t0 h = some s ∧ Agree perMs t0 h s := by
  induction h with
  | nil => exact ⟨_, rfl, rfl, rfl, fun _ => rfl, fun _ => rfl, rfl, rfl, rfl, rfl, rfl, fun k x _ hx => by simp [recent] at hx⟩
  | cons e h ih =>
    obtain ⟨hlt, hlim, hsw, hv'⟩ := hv
    obtain ⟨s, hs, a⟩ := ih hv'
    unfold after
    rw [hs, Option.bind_some]
    cases e with
    | ready f t =>
      refine ⟨_, rfl, a.active, ?_, ?_, ?_, a.epoch, a.delay, a.cnt, a.sum, a.seq, a.names⟩
      · have := a.cpu
        dsimp only
        by_cases hf : s.active = f
        · rw [hf] at this ⊢; rw [upd_same]; exact this
        · rw [upd_ne _ _ hf]; exact this
      · intro g
        dsimp only [readyAt]
        by_cases hf : f = g
        · rw [hf, upd_same, if_pos rfl]
        · rw [upd_ne _ _ (Ne.symm hf), if_neg hf]; exact a.ready g
      · intro g
        dsimp only [suspended]
        by_cases hf : f = g
        · rw [hf, upd_same]; exact a.preempt g
        · rw [upd_ne _ _ (Ne.symm hf)]; exact a.preempt g
    | wake t =>
      refine ⟨_, rfl, a.active, ?_, ?_, ?_, a.epoch, a.delay, a.cnt, a.sum, rfl, fun k x _ hx => by simp [recent] at hx⟩
      · dsimp only; rw [upd_same]; rfl
      · intro g
        dsimp only [readyAt]
        by_cases hf : s.active = g
        · rw [hf, upd_same]; exact a.ready g
        · rw [upd_ne _ _ (Ne.symm hf)]; exact a.ready g
      · intro g
        dsimp only [suspended]
        by_cases hf : s.active = g
        · rw [hf, upd_same]; exact a.preempt g
        · rw [upd_ne _ _ (Ne.symm hf)]; exact a.preempt g
    | switch f t =>
      have hne : f ≠ s.active := by rw [a.active]; exact hsw f t rfl
      have hl : last t0 h < t := hlt
      have htl : t < 2 ^ 64 := hlim
      have hr : t > (s.fib f).ready := by rw [a.ready]; exact Nat.lt_of_le_of_lt (readyAt_le hv' f) hl
      have hrun : sub64 t (s.fib s.active).cpu = t - since t0 h := by
        rw [a.cpu]
        exact sub64_le (Nat.le_of_lt (Nat.lt_of_le_of_lt (since_le hv') hl)) htl
      have hp0 : ¬ perMs = 0 := by omega
      have hnames : ∀ k x, k < 8 → (recent (.switch f t :: h))[k]? = some x →
          upd s.names (s.seq % 8) s.active (((recent (.switch f t :: h)).length - 1 - k) % 8) = x := by
        intro k x hk hx
        simp only [recent, List.length_cons] at hx ⊢
        have hseq : s.seq % 8 = (recent h).length % 8 := by rw [a.seq]; omega
        cases k with
        | zero =>
          rw [hseq, show (recent h).length + 1 - 1 - 0 = (recent h).length by omega, upd_same]
          simp only [List.getElem?_cons_zero, Option.some.injEq] at hx
          rw [a.active]; exact hx
        | succ k =>
          simp only [List.getElem?_cons_succ] at hx
          have hlen : k < (recent h).length := by
            rcases Nat.lt_or_ge k (recent h).length with hh | hh
            · exact hh
            · rw [List.getElem?_eq_none hh] at hx; cases hx
          rw [hseq, upd_ne _ _ (by omega),
            show (recent h).length + 1 - 1 - (k + 1) = (recent h).length - 1 - k by omega]
          exact a.names k x (by omega) hx
      have hseq' : (s.seq + 1) % 2 ^ 32 = (recent (.switch f t :: h)).length % 2 ^ 32 := by
        rw [a.seq]
        simp only [recent, List.length_cons]
        omega
      have hfib : ∀ g, ((upd (upd s.fib s.active { s.fib s.active with cpu := t, preempt := (s.fib s.active).preempt + 1 }) f
          { (upd s.fib s.active { s.fib s.active with cpu := t, preempt := (s.fib s.active).preempt + 1 }) f with cpu := t }) g).ready
          = readyAt t0 g h := by
        intro g
        by_cases h1 : g = f
        · subst h1
          rw [upd_same, upd_ne _ _ hne]
          exact a.ready g
        · rw [upd_ne _ _ h1]
          by_cases h2 : g = s.active
          · rw [h2, upd_same]; exact a.ready _
          · rw [upd_ne _ _ h2]; exact a.ready g
      have hpre : ∀ g, ((upd (upd s.fib s.active { s.fib s.active with cpu := t, preempt := (s.fib s.active).preempt + 1 }) f
          { (upd s.fib s.active { s.fib s.active with cpu := t, preempt := (s.fib s.active).preempt + 1 }) f with cpu := t }) g).preempt
          = (who h :: suspended h).count g := by
        intro g
        rw [List.count_cons, ← a.active]
        have hp := a.preempt g
        by_cases h1 : g = f
        · subst h1
          rw [upd_same, upd_ne _ _ hne]
          have : (s.active == g) = false := by simpa using Ne.symm hne
          rw [this]
          dsimp only
          simp [hp]
        · rw [upd_ne _ _ h1]
          by_cases h2 : g = s.active
          · subst h2
            rw [upd_same]
            simp [hp]
          · rw [upd_ne _ _ h2]
            have : (s.active == g) = false := by simpa using Ne.symm h2
            rw [this]
            simp [hp]
      have hdel : s.delay + (t - (s.fib f).ready) = (waits t0 (.switch f t :: h)).sum := by
        simp only [waits, List.sum_cons]
        rw [a.delay, a.ready]
        omega
      have hep : s.epoch + 1 = (suspended (.switch f t :: h)).length := by
        simp only [suspended, List.length_cons]
        rw [a.epoch]
      unfold St.step St.switch
      dsimp only
      rw [if_pos hr, hrun]
      by_cases hlong : t - since t0 h > perMs
      · rw [if_pos hlong, if_neg hp0]
        refine ⟨_, rfl, rfl, ?_, hfib, hpre, hep, hdel, ?_, ?_, hseq', hnames⟩
        · dsimp only; rw [upd_same]; rfl
        · simp only [runs, List.countP_cons, hlong, decide_true, if_true]
          rw [a.cnt]
        · simp only [runs]
          rw [List.filter_cons_of_pos (by simpa using hlong), List.map_cons, List.sum_cons, ← a.sum]
          omega
      · rw [if_neg hlong]
        refine ⟨_, rfl, rfl, ?_, hfib, hpre, hep, hdel, ?_, ?_, hseq', hnames⟩
        · dsimp only; rw [upd_same]; rfl
        · simp only [runs, List.countP_cons, hlong, decide_false]
          rw [a.cnt]
          simp
        · simp only [runs]
          rw [List.filter_cons_of_neg (by simpa using hlong), ← a.sum]

/-- C135, for an increasing cycle counter (see `C135_back_refuted` for what is missing): the counters
are what happened. The number of switches, the time fibers were ready, the number of runs longer than a
millisecond, and how often each fiber was suspended. -/
theorem C135_counts_partial (perMs t0 : Nat) (hp : 0 < perMs) (h : List Ev) (hv : Valid t0 h) :
    ∃ s, after perMs t0 h = some s ∧ s.epoch = (suspended h).length ∧
      s.delayUsec perMs = (waits t0 h).sum * 1000 / perMs ∧
      s.longCnt = ((runs t0 h).filter (fun r => decide (r > perMs))).length ∧
      ∀ f, (s.fib f).preempt = (suspended h).count f := by
  obtain ⟨s, hs, a⟩ := agree perMs t0 hp h hv
  refine ⟨s, hs, a.epoch, ?_, ?_, a.preempt⟩
  · unfold St.delayUsec; rw [a.delay]
  · rw [a.cnt, List.countP_eq_length_filter]

/-- C135, the total time of long runs, when each of them is shorter than 71 minutes (2^32 microseconds). -/
theorem C135_sum (perMs t0 : Nat) (hp : 0 < perMs) (h : List Ev) (hv : Valid t0 h)
    (hr : ∀ r ∈ runs t0 h, r * 1000 < 2 ^ 64 ∧ r * 1000 / perMs < 2 ^ 32) :
    ∃ s, after perMs t0 h = some s ∧
      s.longUsec = (((runs t0 h).filter (fun r => decide (r > perMs))).map (fun r => r * 1000 / perMs)).sum := by
  obtain ⟨s, hs, a⟩ := agree perMs t0 hp h hv
  refine ⟨s, hs, ?_⟩
  rw [a.sum]
  congr 1
  refine List.map_congr_left fun r hm => ?_
  obtain ⟨h1, h2⟩ := hr r ((List.mem_filter.mp hm).1)
  unfold usec
  rw [Nat.mod_eq_of_lt h1, Nat.mod_eq_of_lt h2]

/-- C135, `GetPastFiberNames` gives fibers that were suspended since the thread came back from waiting,
the newest ones, oldest of them first; how many is the number of switches modulo 8. -/
theorem C135_names (perMs t0 : Nat) (hp : 0 < perMs) (h : List Ev) (hv : Valid t0 h) :
    ∃ s, after perMs t0 h = some s ∧ s.pastNames = ((recent h).take ((recent h).length % 8)).reverse := by
  obtain ⟨s, hs, a⟩ := agree perMs t0 hp h hv
  refine ⟨s, hs, ?_⟩
  have hseq : s.seq % 8 = (recent h).length % 8 := by rw [a.seq]; omega
  unfold St.pastNames
  rw [hseq]
  refine List.ext_getElem ?_ ?_
  · simp only [List.length_map, List.length_range, List.length_reverse, List.length_take]
    have := Nat.mod_le (recent h).length 8
    omega
  · intro i h1 h2
    simp only [List.length_map, List.length_range] at h1
    simp only [List.getElem_map, List.getElem_range, List.getElem_reverse, List.getElem_take,
      List.length_take]
    have hle := Nat.mod_le (recent h).length 8
    have hmin : min ((recent h).length % 8) (recent h).length = (recent h).length % 8 := by omega
    have hk : (recent h).length % 8 - 1 - i < (recent h).length := by omega
    have := a.names ((recent h).length % 8 - 1 - i) ((recent h)[(recent h).length % 8 - 1 - i]) (by omega)
      (List.getElem?_eq_getElem hk)
    have hidx : ((recent h).length - 1 - ((recent h).length % 8 - 1 - i)) % 8 = i := by omega
    rw [hidx] at this
    rw [this]
    congr 1
    rw [hmin]

/-- The full property is false of the code when the counter goes back, although the code says that such
cases are ignored: fiber 1 is made ready after the counter was reset, and the switch to it 15 cycles
later counts a long run of the suspended fiber, of more than an hour. -/
theorem C135_back_refuted :
    ∃ s, after 1000000 500 [.switch 1 25, .ready 1 10] = some s ∧ s.longCnt = 1 ∧ s.longUsec > 3600000000 := by
  refine ⟨_, rfl, ?_, ?_⟩ <;> decide +kernel

/-- The full property is false of the code for a run of 71.6 minutes or more: less time is added than
passed. -/
theorem C135_hour_refuted (perMs r : Nat) (h : r * 1000 / perMs ≥ 2 ^ 32) : usec perMs r < r * 1000 / perMs := by
  unfold usec
  have := Nat.mod_lt (r * 1000 % 2 ^ 64 / perMs) (show 0 < 2 ^ 32 by decide)
  omega

/-- The full property is false of the code: after eight switches there are eight names to tell, and
`GetPastFiberNames` gives none. -/
theorem C135_names_refuted :
    ∃ h s, Valid 0 h ∧ after 1000 0 h = some s ∧ (recent h).length = 8 ∧ s.pastNames = [] := by
  refine ⟨[.switch 0 16, .switch 1 14, .switch 0 12, .switch 1 10, .switch 0 8, .switch 1 6, .switch 0 4, .switch 1 2],
    _, ?_, rfl, ?_, ?_⟩
  · simp [Valid, last, who]
  · decide
  · decide

/-- The full property is false of the code: when the frequency of the counter is not known, the first
switch after a positive time divides by zero. -/
theorem C135_frequency_refuted (t0 t : Nat) (h : t0 < t) (ht : t < 2 ^ 64) :
    after 0 t0 [.switch 1 t] = none := by
  have h1 : sub64 t t0 = t - t0 := sub64_le (by omega) ht
  have h2 : t - t0 > 0 := by omega
  simp [after, St.step, St.switch, St.new, h, h1, h2]

/-- A concrete history: fiber 1 is ready at 20 and runs from 30 to 5000. -/
theorem C135_case :
    Valid 10 [.switch 2 5000, .ready 2 40, .switch 1 30, .ready 1 20] ∧
    ∃ s, after 1000 10 [.switch 2 5000, .ready 2 40, .switch 1 30, .ready 1 20] = some s ∧
      s.longCnt = 1 ∧ s.longUsec = 4970 ∧ s.delayUsec 1000 = 4970 ∧ s.epoch = 2 ∧ s.pastNames = [0, 1] ∧
      (s.fib 1).preempt = 1 := by
  refine ⟨by simp [Valid, last, who], _, rfl, ?_, ?_, ?_, ?_, ?_, ?_⟩ <;> decide +kernel

end Verif.SwitchStat
