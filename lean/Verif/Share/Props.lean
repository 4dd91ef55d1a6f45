import Verif.Share.Spec
/-!
# Sharing a thread between normal and background fibers (C128)
-/
namespace Verif.Share
open Verif.Common

variable {p : Par} {t0 : Nat} {c0 : Config} {s : S}

/-- Whatever the fibers do and whatever `background_warrant_pct` is: since background fibers last got a round,
the `NORMAL` rounds at whose end some of them were waiting took at most 25 ms and one round. -/
theorem C128_wait_partial (hp : Fits p) (h : Runs p t0 c0 s) : 2 * s.waited ≤ 5 * p.slice + 2 * p.R := by
  have hw := (inv (by rw [hp]; decide) t0 c0 h).w
  unfold W at hw
  split at hw <;> omega

/-- A background round goes over its budget by less than what one stretch between two preemption points
takes; so `NORMAL` fibers that become ready in it wait at most so long. -/
theorem C128_budget (hp : Fits p) (h : Runs p t0 c0 s) (hb : s.background) :
    s.took ≤ s.budget + p.D ∧ (s.act ≠ 0 → s.now - s.start ≤ s.budget + p.D) := by
  obtain ⟨c, hb⟩ := hb
  have ht := (inv (by rw [hp]; decide) t0 c0 h).t
  have h1 := ht.st _ _ hb
  have h2 := ht.bg _ hb
  refine ⟨by omega, fun ha => ?_⟩
  have h3 := ht.on _ hb ha
  omega

/-- The budget is the configured one, at the start of each background round. -/
theorem C128_budget_set (callBg : Bool) (s : S) :
    (beginRound p callBg true s).budget = p.fromUs (s.cfg.budgetBackground / 1000) ∧
    (beginRound p callBg false s).budget = p.fromUs (s.cfg.budgetNormal / 1000) := by
  constructor
  · simp only [beginRound, popSwitch, if_true]; split <;> rfl
  · simp only [beginRound, popSwitch, Bool.false_eq_true, if_false]; split <;> rfl

/-- On a thread that always has `NORMAL` fibers to run, background fibers get no more than the configured
percentage, plus at most one background round for each 10 ms (and one more). -/
theorem C128_share (hp : Fits p) (h : Runs p t0 c0 s) (hb : s.busy = true) :
    100 * s.totB ≤ c0.warrantPct * (s.totN + s.totB) + 100 * ((s.resets + 1) * longest p c0) ∧
    s.resets * p.slice ≤ s.totN + s.totB := by
  have hh := (inv (by rw [hp]; decide) t0 c0 h).h
  obtain ⟨oN, oB, e1, e2, e3, e4⟩ := hh.old hb
  have h1 := hh.cur hb
  have h2 : 100 * s.rtB ≤ c0.warrantPct * (s.rtN + s.rtB) + 100 * longest p c0 := by split at h1 <;> omega
  refine ⟨?_, by omega⟩
  rw [e1, e2]
  simp only [Nat.mul_add, Nat.add_mul, Nat.one_mul] at *
  omega

/-- When `Run(NORMAL)` returns after a `NORMAL` round without giving waiting background fibers a round, then
they have got more than the configured percentage since the count began, or no time was counted at all. -/
theorem C128_minimum {s' : S} {c : Bool} (hpc : s.pc = .round c false) (hs : step p s .back = some s') (ho : s'.pc = .out)
    (hr : s'.rb ≠ []) : s'.rtN = 0 ∨ s'.cfg.warrantPct * (s'.rtN + s'.rtB) < 100 * s'.rtB := by
  simp only [step, hpc] at hs
  split at hs
  · cases hs
    unfold back at ho hr ⊢
    split at ho
    · rename_i hst
      rw [if_pos hst] at hr ⊢
      simp only [Bool.false_eq_true, if_false, afterNormal] at ho hr ⊢
      split at ho
      · exfalso
        simp only [beginRound, popSwitch, if_true] at ho
        split at ho <;> cases ho
      · rename_i hw
        rw [if_neg hw] at hr ⊢
        generalize account false s = t at *
        simp only [ret] at hr ⊢
        simp only [warranted, Bool.and_eq_true, Bool.not_eq_true', List.isEmpty_eq_false_iff, decide_eq_true_eq, not_and] at hw
        by_cases h0 : t.rtN = 0
        · exact .inl h0
        · have h1 := hw ⟨hr, by omega⟩
          rw [Nat.le_div_iff_mul_le (by omega), Nat.mul_comm _ t.cfg.warrantPct] at h1
          exact .inr (by omega)
    · exfalso
      simp only [popSwitch, Bool.false_eq_true, if_false] at ho
      split at ho <;> simp [hpc] at ho
  · cases hs

/-- Background fibers get a round within `Run(NORMAL)` only while they are within the percentage, and only
after `NORMAL` fibers ran. -/
theorem C128_only_within {s' : S} {c : Bool} (hpc : s.pc = .round c false) (hs : step p s .back = some s') (hb : s'.background) :
    0 < s'.rtN ∧ 100 * s'.rtB ≤ s'.cfg.warrantPct * (s'.rtN + s'.rtB) := by
  simp only [step, hpc] at hs
  split at hs
  · cases hs
    obtain ⟨c', hb⟩ := hb
    unfold back at hb ⊢
    split at hb
    · rename_i hst
      rw [if_pos hst]
      simp only [Bool.false_eq_true, if_false, afterNormal] at hb ⊢
      split at hb
      · rename_i hw
        rw [if_pos hw]
        generalize account false s = t at *
        simp only [warranted, Bool.and_eq_true, Bool.not_eq_true', List.isEmpty_eq_false_iff, decide_eq_true_eq] at hw
        have h1 := hw.2
        rw [Nat.le_div_iff_mul_le (by omega), Nat.mul_comm _ t.cfg.warrantPct] at h1
        have h2 := hw.1.2
        simp only [beginRound, popSwitch, if_true]
        split <;> (dsimp only; omega)
      · cases hb
    · exfalso
      simp only [popSwitch, Bool.false_eq_true, if_false] at hb
      split at hb <;> simp [hpc] at hb
  · cases hs

/-- A background fiber that yields within the budget goes on at once: nobody else runs and no queue changes. -/
theorem C128_yield_keeps (ha : s.act ≠ 0) (hb : p.prio s.act = .background) (hlt : s.now - s.start < s.budget) :
    ∃ s', step p s .yield = some s' ∧ s'.act = s.act ∧ s'.rn = s.rn ∧ s'.rb = s.rb ∧ s'.sleeping = s.sleeping := by
  refine ⟨point true s, ?_, rfl, rfl, rfl, rfl⟩
  simp only [step, if_pos ha, yield]
  rw [if_pos (show p.prio (point true s).act = .background from hb), if_pos (show (point true s).took < (point true s).budget from hlt)]

/-- A background fiber that yields with its budget used up hands the thread to the dispatcher, and either waits
behind the other background fibers, or sleeps, for at most 1.5 ms, and only if the last round of `NORMAL`
fibers was more than 5 ms ago and the fiber ran longer than the whole budget or the draw says so. -/
theorem C128_yield_gives (ha : s.act ≠ 0) (hb : p.prio s.act = .background) (hge : s.budget ≤ s.now - s.start) :
    ∃ s', step p s .yield = some s' ∧ s'.act = 0 ∧ s'.rn = s.rn ∧
      (s'.rb = s.rb ++ [s.act] ∧ s'.sleeping = s.sleeping ∨
       s'.rb = s.rb ∧ ∃ us, s'.sleeping = s.sleeping ++ [(s.act, us)] ∧ 0 < us ∧ us ≤ 1500 ∧ us ≤ p.toUs (s.now - s.last) ∧
         p.fromUs 5000 < s.now - s.lastNormal ∧ (s.budget < s.now - s.last ∨ s.now % 100 < s.cfg.sleepProb)) := by
  refine ⟨bgYield p s (point true s), ?_, ?_⟩
  · simp only [step, if_pos ha, yield]
    rw [if_pos (show p.prio (point true s).act = .background from hb),
      if_neg (show ¬ (point true s).took < (point true s).budget from by show ¬ (s.now - s.start < s.budget); omega)]
  · unfold bgYield
    split
    · rename_i hsl
      refine ⟨rfl, rfl, .inr ⟨rfl, _, rfl, hsl, ?_⟩⟩
      unfold sleepUs at hsl ⊢
      split at hsl
      · rename_i hc
        rw [if_pos hc]
        simp only [likelyIdle, hungry, shouldYield, Bool.and_eq_true, Bool.or_eq_true, decide_eq_true_eq] at hc
        exact ⟨Nat.min_le_left _ _, Nat.min_le_right _ _, hc.1, hc.2⟩
      · simp at hsl
    · refine ⟨rfl, ?_, .inl ?_⟩ <;>
        (simp only [addReady, show (point true s).act = s.act from rfl, hb]; first | rfl | exact ⟨rfl, rfl⟩)

/-- A `NORMAL` round is over as soon as the dispatcher's turn comes and some fiber has yielded in it, or it
is over budget: the loop goes back to its events (perhaps after a background round). -/
theorem C128_round_ends {s' : S} {c : Bool} (hpc : s.pc = .round c false) (hy : 0 < s.yields ∨ s.budget < s.took)
    (hs : step p s .back = some s') : s'.totN = s.totN + s.took ∧ (s'.pc = .out ∨ s'.background) := by
  simp only [step, hpc] at hs
  split at hs
  · cases hs
    have hst : stop false s = true := by
      simp only [stop, Bool.or_eq_true, Bool.and_eq_true, decide_eq_true_eq, Bool.not_false, true_and]
      omega
    unfold back
    rw [if_pos hst]
    simp only [Bool.false_eq_true, if_false, afterNormal]
    split
    · simp only [beginRound, popSwitch, if_true]
      split
      · exact ⟨rfl, .inr ⟨_, rfl⟩⟩
      · exact ⟨rfl, .inr ⟨_, rfl⟩⟩
    · exact ⟨rfl, .inl rfl⟩
  · cases hs

/-- `Run` reports `HAS_ACTIVE` exactly if a fiber of that priority or a higher one is ready. -/
theorem C128_result {s' : S} {c : Bool} (hs : step p s (.run c) = some s') (ho : s'.pc = .out) :
    s'.res = true ↔ s'.rn ≠ [] ∨ c = true ∧ s'.rb ≠ [] := by
  simp only [step] at hs
  split at hs
  · cases hs
    have hbr : ∀ c' bg t, (beginRound p c' bg t).pc ≠ .out := by
      intro c' bg t
      simp only [beginRound, popSwitch]
      split
      · split <;> simp
      · split <;> simp
    have hret : ∀ c t, (ret c t).res = true ↔ (ret c t).rn ≠ [] ∨ c = true ∧ (ret c t).rb ≠ [] := by
      intro c t; cases c <;> simp [ret]
    unfold run at ho ⊢
    dsimp only at ho ⊢
    cases c
    · simp only [Bool.false_eq_true, if_false] at ho ⊢
      split at ho
      · rename_i he
        rw [if_pos he]
        unfold afterNormal at ho ⊢
        split at ho
        · exact absurd ho (hbr _ _ _)
        · rename_i hw; rw [if_neg hw]; simpa using hret false _
      · exact absurd ho (hbr _ _ _)
    · simp only [if_true] at ho ⊢
      split at ho
      · rename_i he; rw [if_pos he]; simpa using hret true (resetCount p s)
      · exact absurd ho (hbr _ _ _)
  · cases hs

/-- The wait has no bound in time: while the loop is kept busy by callbacks that make no `NORMAL` fiber ready,
it never reaches `Run(BACKGROUND)`, and `Run(NORMAL)` gives background fibers nothing, because no `NORMAL` time
has been counted. -/
theorem C128_callbacks_starve (t0 d : Nat) (c0 : Config) (hb : p.prio 1 = .background) (hs : 0 < p.slice) (n : Nat) :
    ∃ s, Runs p t0 c0 s ∧ exec (step p) (S.init t0 c0) (.wake 1 :: callbacks d n) = some s ∧
      s.now = t0 + n * d ∧ s.rb = [1] ∧ s.act = 0 ∧ s.totB = 0 ∧ s.res = false := by
  have key : ∀ n t, exec (step p) { S.init t c0 with rb := [1] } (callbacks d n) =
      some { S.init (t + n * d) c0 with rb := [1] } := by
    intro n
    induction n with
    | zero => intro t; simp [callbacks, exec]
    | succ n ih =>
      intro t
      have h1 : step p { S.init t c0 with rb := [1] } (.tick d) = some { S.init (t + d) c0 with rb := [1] } := rfl
      have h2 : step p { S.init (t + d) c0 with rb := [1] } (.run false) = some { S.init (t + d) c0 with rb := [1] } := by
        have h3 : ¬ (0 ≥ p.slice) := by omega
        simp [step, S.init, run, resetCount, afterNormal, warranted, ret, Nat.ne_of_gt hs]
      simp only [callbacks, exec, h1, h2]
      rw [ih (t + d), show t + d + n * d = t + (n + 1) * d from by rw [Nat.succ_mul]; omega]
  have h0 : step p (S.init t0 c0) (.wake 1) = some { S.init t0 c0 with rb := [1] } := by
    simp [step, S.init, wake, hb]
  have he : exec (step p) (S.init t0 c0) (.wake 1 :: callbacks d n) = some { S.init (t0 + n * d) c0 with rb := [1] } := by
    simp only [exec, h0, key]
  exact ⟨_, Reachable.exec (.init rfl trivial) _ he, he, rfl, rfl, rfl, rfl, rfl⟩

/-- A clock of one cycle per microsecond, fiber 2 in the background. -/
def p0 : Par :=
  { fromUs := id, toUs := id, prio := fun f => if f = 2 then .background else .normal, D := 3000, R := 4000 }

/-- The defaults of scheduler.h 32-35. -/
def cfg0 : Config := { budgetNormal := 1000000, budgetBackground := 50000, sleepProb := 10, warrantPct := 10 }

/-- Fiber 1 runs 1 ms and suspends; fiber 2 gets a background round within `Run(NORMAL)`, yields inside its budget
and again after it. It then took more than its tenth, so the next round of fiber 1 makes it wait. -/
def acts0 : List Act :=
  [.wake 1, .wake 2, .run false, .tick 1000, .suspend, .back, .tick 20, .yield, .tick 2000, .yield, .back,
   .wake 1, .run false, .tick 1500, .suspend, .back]

theorem C128_case : ∃ s, Runs p0 0 cfg0 s ∧ Fits p0 ∧ s.busy = true ∧ s.rb = [2] ∧ s.totN = 2500 ∧ s.totB = 2020 ∧
    s.waited = 1500 ∧ s.pc = .out :=
  ⟨_, Reachable.exec (.init rfl trivial) acts0 rfl, rfl, by decide, by decide, by decide, by decide, by decide, by decide⟩

/-- In the middle of it the background round is going on, with fiber 2 running. -/
theorem C128_case_round : ∃ s, Runs p0 0 cfg0 s ∧ s.background ∧ s.act = 2 ∧ s.budget = 50 ∧ s.took = 20 :=
  ⟨_, Reachable.exec (.init rfl trivial) (acts0.take 8) rfl, ⟨false, by decide⟩, by decide, by decide, by decide⟩

/-- A background fiber alone on the thread for more than 5 ms sleeps when it yields. -/
theorem C128_case_sleep : ∃ s, Runs p0 0 cfg0 s ∧ s.sleeping = [(2, 1500)] ∧ s.act = 0 :=
  ⟨_, Reachable.exec (.init rfl trivial) [.wake 2, .tick 6000, .run false, .run true, .tick 2500, .yield] rfl, by decide, by decide⟩

end Verif.Share
