import Verif.FutRA.Lemmas
/-! C95: the value of a future over the memory of C++ threads. -/
namespace Verif.FutRA
open Verif.Common Verif.RelAcq

/-- States that can be reached by the program `c`. -/
abbrev Reached (c : Cfg) (s : State) : Prop := Reachable Init (step c) s

/-- The consumer has the value, or its test has succeeded. -/
def Wins (p : CPc) : Prop := (∃ k, p = .won k) ∨ p = .got ∨ p = .fin

theorem base_of {c : Cfg} {s : State} (h : Reached c s) : Base s :=
  Reachable.invariant Base (fun s h => (inv_init c s h).1) (fun s a s' hi hs => (inv_step2 c s a s' hi hs).1) h

theorem no_race {c : Cfg} (hc : Strong c) {s : State} (h : Reached c s) : s.race = false :=
  (Reachable.invariant (fun s => Base s ∧ Data c s) (inv_init c)
    (fun s a s' hi hs => ⟨(inv_step2 c s a s' hi.1 hs).1, (inv_step2 c s a s' hi.1 hs).2 hc hi.2⟩) h).2.race

/-- C95, false for `GetFor` (`C95_getfor_races`). Proved for the code without calls of `GetFor`: what `Resolve` stored happens before `Get` takes it and before the reads of those who called `GetRef`. -/
theorem C95_no_race_partial {s : State} (h : Reached untimed s) : s.race = false := no_race ⟨rfl, fun e => by cases e⟩ h

/-- C95 with an acquire fence in `await_until`: also for `GetFor`. -/
theorem C95_repaired {s : State} (h : Reached repaired s) : s.race = false := no_race ⟨rfl, fun _ => rfl⟩ h

/-- C95: one call of `Get` or `GetFor` at most gets the value. -/
theorem C95_once {c : Cfg} {s : State} (h : Reached c s) {i j : Nat} {p q : CPc} (hi : s.th[i]? = some p) (hj : s.th[j]? = some q) (hp : Wins p) (hq : Wins q) : i = j := by
  have hI := base_of h
  have w : ∀ {p : CPc}, Wins p → p.isWin = true := by rintro p (⟨k, rfl⟩ | rfl | rfl) <;> rfl
  refine Classical.byContradiction fun e => ?_
  have := two_of (f := CPc.isWin) hi hj (w hp) (w hq) e
  have := win_le hI
  omega

/-- C95: nobody gets a value before `Resolve` has stored it. -/
theorem C95_not_before {c : Cfg} {s : State} (h : Reached c s) {i : Nat} {p : CPc} (hi : s.th[i]? = some p) (hp : Wins p ∨ p = .wonR) : s.prod = .stored := by
  have hI := base_of h
  refine Classical.byContradiction fun e => ?_
  obtain ⟨e1, e2⟩ := hI.early e
  rcases hp with hp | rfl
  · have w : p.isWin = true := by rcases hp with ⟨k, rfl⟩ | rfl | rfl <;> rfl
    have := pos_of (f := CPc.isWin) hi w
    rw [hI.win, e1] at this; cases this
  · exact e2 i hi

/-! ### `GetFor` races -/

theorem witness (c : Cfg) (r : Bool) (acts : List Act) (p : State → Bool) (h : (exec (step c) (startOf r 2) acts).any p = true) : ∃ s, Reached c s ∧ p s = true := by
  cases e : exec (step c) (startOf r 2) acts with
  | none => rw [e] at h; cases h
  | some s => rw [e] at h; exact ⟨s, Reachable.exec (.init ⟨r, 2, rfl⟩ trivial) acts e, h⟩

/-- C95 is false for the code: the first test of `GetFor` succeeds, it is relaxed, and no fence follows. -/
theorem C95_getfor_races : ∃ s, Reached theCode s ∧ s.race = true :=
  witness theCode false [.set, .publish 1, .tryGet 0 true 1, .fence 0, .take 0] (·.race) (by decide +kernel)

/-- It also happens after a wait that was started before `Resolve`: `has_value` is set, `notify` has not been called yet. -/
theorem C95_getfor_races_in_loop : ∃ s, Reached theCode s ∧ s.race = true :=
  witness theCode false [.tryGet 0 true 0, .ev 1 .prepare 0, .set, .publish 2, .tryGet 0 true 2, .fence 0, .ev 1 .drop 1, .take 0, .ev 0 .notify 2] (·.race) (by decide +kernel)

/-- The fences are what is needed: in `await` always, in `await_until` if `GetFor` is called. -/
theorem C95_fence_needed {c : Cfg} : (∀ s, Reached c s → s.race = false) ↔ c.getFence = true ∧ (c.timed = true → c.forFence = true) := by
  constructor
  · intro h
    have h1 : ∀ f t, (exec (step ⟨false, f, t⟩) (startOf false 2) [.set, .publish 1, .tryGet 0 false 1, .fence 0, .take 0]).any (·.race) = true := by decide +kernel
    have h2 : ∀ g, (exec (step ⟨g, false, true⟩) (startOf false 2) [.set, .publish 1, .tryGet 0 true 1, .fence 0, .take 0]).any (·.race) = true := by decide +kernel
    obtain ⟨g, f, t⟩ := c
    refine ⟨?_, fun ht => ?_⟩
    · cases g with
      | true => rfl
      | false =>
        obtain ⟨s, hs, hr⟩ := witness _ _ _ _ (h1 f t)
        rw [h s hs] at hr; cases hr
    · have ht : t = true := ht
      subst ht
      cases f with
      | true => rfl
      | false =>
        obtain ⟨s, hs, hr⟩ := witness _ _ _ _ (h2 g)
        rw [h s hs] at hr; cases hr
  · exact fun hc s h => no_race hc h

/-! ### The hypotheses can be met -/

/-- Two consumers try, one gets the value. -/
example : ∃ s, Reached untimed s ∧ s.th = [.fin, .idle] ∧ s.race = false := by
  obtain ⟨s, h, hp⟩ := witness untimed false [.tryGet 1 false 0, .set, .publish 4, .tryGet 1 false 1, .tryGet 0 false 4, .tryGet 1 false 5, .fence 0, .take 0]
    (fun s => decide (s.th = [.fin, .idle]) && !s.race) (by decide +kernel)
  simp only [Bool.and_eq_true, decide_eq_true_eq, Bool.not_eq_true'] at hp
  exact ⟨s, h, hp⟩

/-- Two consumers read the value with `GetRef`. -/
example : ∃ s, Reached untimed s ∧ s.th = [.wonR, .wonR] ∧ s.race = false := by
  obtain ⟨s, h, hp⟩ := witness untimed true [.tryRef 1 0, .set, .publish 4, .tryRef 1 4, .tryRef 0 0, .tryRef 0 4, .read 0, .read 1]
    (fun s => decide (s.th = [.wonR, .wonR]) && !s.race) (by decide +kernel)
  simp only [Bool.and_eq_true, decide_eq_true_eq, Bool.not_eq_true'] at hp
  exact ⟨s, h, hp⟩

/-- `GetFor` with the fence. -/
example : ∃ s, Reached repaired s ∧ s.th = [.fin, .idle] ∧ s.race = false := by
  obtain ⟨s, h, hp⟩ := witness repaired false [.set, .publish 1, .tryGet 0 true 1, .fence 0, .take 0]
    (fun s => decide (s.th = [.fin, .idle]) && !s.race) (by decide +kernel)
  simp only [Bool.and_eq_true, decide_eq_true_eq, Bool.not_eq_true'] at hp
  exact ⟨s, h, hp⟩

end Verif.FutRA
