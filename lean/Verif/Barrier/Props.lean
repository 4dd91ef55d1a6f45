import Verif.Barrier.Lemmas
/-!
# C23: `Barrier`
-/
namespace Verif.Barrier
open Verif.Common Verif.Sync

/-- C23: unless the barrier was cancelled, `Wait` returns only when all participants of the cycle have arrived. -/
theorem C23_full_cycle {s : State G L} (h : BReach Few s) {t i : Nat} {b : Bool} (hr : Returning s t b i) (hc : s.g.canceled = false) :
    Complete s.g i := (ginv_reach h).ret hc t b i hr

/-- C23: unless the barrier was cancelled, `Wait` returns true to exactly one participant of each cycle, the last one to arrive. -/
theorem C23_last_arrival {s : State G L} (h : BReach Few s) {t i : Nat} {b : Bool} (hr : Returning s t b i) (hc : s.g.canceled = false) :
    b = true ↔ (i + 1) % s.g.initial = 0 := by
  have hI := ginv_reach h
  cases b with
  | true => exact ⟨fun _ => hI.last t i (.inl hr) hc, fun _ => rfl⟩
  | false => exact ⟨(fun h => nomatch h), fun h => absurd h (hI.nlast t i hr hc)⟩

/-- C23: a completed cycle lets its participants go: a fiber that stays blocked (nobody is about to notify it) in a barrier that was not
cancelled belongs to a cycle that is not complete. -/
theorem C23_released {s : State G L} (h : BReach Few s) {t i : Nat} (hb : Blocked s t i) (hc : s.g.canceled = false)
    (hn : ¬ HelpComing s t) : ¬ Complete s.g i := by
  obtain ⟨hu, c, hl⟩ := hb
  have hI := ginv_reach h
  have hw := C21_no_lost_wakeup disc untimed (fun l hl => by subst hl; exact ⟨rfl, by simp [barrier, call]⟩) signals
    (h.mono (fun _ _ => trivial)) hu
  rw [hl] at hw
  have hcc : ¬ cond s.g (.wWait c i) := fun h => hn (hw h)
  have hcyc : c = s.g.cyc := Classical.byContradiction fun h => hcc (.inl h)
  have h1 := (hI.chk hc t c i (.inr hl)).1
  have h2 := hI.cnt hc
  have h3 := hI.cur
  unfold Complete
  rw [← h1, hcyc, Nat.add_mul, Nat.one_mul]; omega

/-- C23 (what holds of "after `Cancel` no `Wait` blocks"): as long as no cycle is completed after a `Cancel`, that is while `cycle_` keeps the value
`Cancel` gave it, every blocked fiber is about to be notified. Missing: once the last participant of the cycle arrives, the
cancellation is forgotten (`C23_cancel_not_final`). -/
theorem C23_cancel_partial {s : State G L} (h : BReach (fun _ => True) s) {t i : Nat} (hb : Blocked s t i) (hc : s.g.cyc = maxSize) :
    HelpComing s t := by
  obtain ⟨hu, c, hl⟩ := hb
  have hw := C21_no_lost_wakeup disc untimed (fun l hl => by subst hl; exact ⟨rfl, by simp [barrier, call]⟩) signals h hu
  rw [hl] at hw
  exact hw (.inr hc)

/-- Nor does a `Wait` that arrives then block. -/
theorem C23_cancel_nonblocking_partial (g : G) (c i t : Nat) (b : Bool) (hc : g.cyc = maxSize) :
    barrier.loc g (.wChk c i) t b = some (g, .wUnl false i) := by
  simp [barrier, loc, hc]

/-- C23: the mutex and the condition variable are used correctly as far as `Wait` and the mutex go. -/
theorem C23_never_bad {s : State G L} (h : BReach (fun _ => True) s) : s.bad = false :=
  C20_never_bad disc untimed (fun l hl => by subst hl; rfl) h

def repeatGo (t : Nat) (c : Bool) (n : Nat) : List (Act Bool) := List.replicate n (.go t c)

/-- Fiber 0 of two has arrived and is blocked. -/
example : ∃ s, BReach Few s ∧ Blocked s 0 0 ∧ s.g.canceled = false :=
  run_ex_q { initial := 2, cur := 2 } 2 (fun _ => .idle) ⟨by decide, by decide, rfl⟩ (fun _ => rfl) (repeatGo 0 true 12)
    (fun s => decide (s.g.arrived < maxSize)) (fun s h => by have := of_decide_eq_true h; exact this)
    (fun s => decide (s.ep 0 = .cSleep false ∧ s.cl 0 = .wWait 0 0 ∧ s.g.canceled = false))
    (fun s h => by
      obtain ⟨h1, h2, h3⟩ := of_decide_eq_true h
      exact ⟨⟨.inl ⟨_, h1⟩, _, h2⟩, h3⟩) (by decide +kernel)

/-- Fiber 1 arrives too and notifies fiber 0, which is about to return false. -/
example : ∃ s, BReach Few s ∧ Returning s 0 false 0 ∧ s.cl 1 = .idle ∧ s.g.canceled = false :=
  run_ex_q { initial := 2, cur := 2 } 2 (fun _ => .idle) ⟨by decide, by decide, rfl⟩ (fun _ => rfl)
    (repeatGo 0 true 12 ++ repeatGo 1 true 15 ++ repeatGo 0 true 5)
    (fun s => decide (s.g.arrived < maxSize)) (fun s h => by have := of_decide_eq_true h; exact this)
    (fun s => decide (s.cl 0 = .wUnl false 0 ∧ s.cl 1 = .idle ∧ s.g.canceled = false)) (fun s h => by have := of_decide_eq_true h; exact this) (by decide +kernel)

/-- Fiber 1 has cancelled and is about to notify fiber 0. -/
example : ∃ s, BReach (fun _ => True) s ∧ Blocked s 0 0 ∧ s.g.cyc = maxSize :=
  run_ex { initial := 2, cur := 2 } 2 (fun _ => .idle) ⟨by decide, by decide, rfl⟩ (fun _ => rfl)
    (repeatGo 0 true 12 ++ repeatGo 1 false 7)
    (fun s => decide (s.ep 0 = .cSleep false ∧ s.cl 0 = .wWait 0 0 ∧ s.g.cyc = maxSize))
    (fun s h => by
      obtain ⟨h1, h2, h3⟩ := of_decide_eq_true h
      exact ⟨⟨.inl ⟨_, h1⟩, _, h2⟩, h3⟩) (by decide +kernel)

/-- C23 is false: `Cancel` is not final. Two participants; fiber 0 cancels; fibers 1 and 2 call `Wait` and return (the second one completes
a cycle, and `++cycle_` wraps the cancelled value to 0). Then fiber 3 calls `Wait` and blocks: everyone else has returned. -/
theorem C23_cancel_not_final : ∃ s, BReach (fun _ => True) s ∧ s.g.canceled = true ∧ s.n = 4 ∧ Blocked s 3 2 ∧
    ∀ t, t < 3 → s.ep t = .cl ∧ s.cl t = .idle :=
  run_ex (P := barrier) { initial := 2, cur := 2 } 4 (fun _ => .idle) ⟨by decide, by decide, rfl⟩ (fun _ => rfl)
    (repeatGo 0 false 13 ++ repeatGo 1 true 12 ++ repeatGo 2 true 13 ++ repeatGo 3 true 12)
    (fun s => decide (s.g.canceled = true ∧ s.n = 4 ∧ s.ep 3 = .cSleep false ∧ s.cl 3 = .wWait 0 2) && [0, 1, 2].all fun t => decide (s.ep t = .cl ∧ s.cl t = .idle))
    (fun s h => by
      rw [Bool.and_eq_true] at h
      obtain ⟨h1, h2, h3, h4⟩ := of_decide_eq_true h.1
      exact ⟨h1, h2, ⟨.inl ⟨_, h3⟩, _, h4⟩, fun t ht => of_decide_eq_true (List.all_eq_true.1 h.2 t (by simp; omega))⟩) (by decide +kernel)

/-- The same with a fiber that was already waiting when `Cancel` was called: fiber 0 waits, fiber 1 cancels and is about to notify,
fiber 2 completes the cycle. `cycle_` is then 0 again, which is what fiber 0 saw when it arrived: it wakes, finds nothing changed, and blocks
for good. -/
theorem C23_waiter_lost : ∃ s, BReach (fun _ => True) s ∧ s.g.canceled = true ∧ Complete s.g 0 ∧ s.n = 3 ∧ Blocked s 0 0 ∧
    ∀ t, 0 < t → t < 3 → s.ep t = .cl ∧ s.cl t = .idle :=
  run_ex (P := barrier) { initial := 2, cur := 2 } 3 (fun _ => .idle) ⟨by decide, by decide, rfl⟩ (fun _ => rfl)
    (repeatGo 0 true 12 ++ repeatGo 1 false 11 ++ repeatGo 2 true 15 ++ repeatGo 1 false 2 ++ repeatGo 0 true 10)
    (fun s => decide (s.g.canceled = true ∧ s.g.arrived = 2 ∧ s.g.initial = 2 ∧ s.n = 3 ∧ s.ep 0 = .cSleep false ∧ s.cl 0 = .wWait 0 0) &&
      [1, 2].all fun t => decide (s.ep t = .cl ∧ s.cl t = .idle))
    (fun s h => by
      rw [Bool.and_eq_true] at h
      obtain ⟨h1, h2, h3, h4, h5, h6⟩ := of_decide_eq_true h.1
      exact ⟨h1, by unfold Complete; rw [h2, h3]; decide, h4, ⟨.inl ⟨_, h5⟩, _, h6⟩, fun t a b => of_decide_eq_true (List.all_eq_true.1 h.2 t (by simp; omega))⟩) (by decide +kernel)

/-- C23: `Cancel` notifies after releasing the mutex, so it can access the wait queue of the condition variable at the same time as the
`notify_all` of the last participant: a data race on an unprotected list. -/
theorem C23_cancel_races : ∃ s, BReach (fun _ => True) s ∧ s.cq = [0] ∧ Racing barrier s :=
  run_ex (P := barrier) { initial := 2, cur := 2 } 3 (fun _ => .idle) ⟨by decide, by decide, rfl⟩ (fun _ => rfl)
    (repeatGo 0 true 12 ++ repeatGo 1 false 12 ++ repeatGo 2 true 7)
    (fun s => decide (s.cq = [0] ∧ s.n = 3 ∧ s.ep 1 = .nGo true false ∧ s.ep 2 = .nGo true false))
    (fun s h => by
      obtain ⟨h1, h2, h3, h4⟩ := of_decide_eq_true h
      exact ⟨h1, 1, 2, by omega, by omega, by omega, .inr (.inr (.inl ⟨_, _, h3⟩)), .inr (.inr (.inl ⟨_, _, h4⟩))⟩) (by decide +kernel)

end Verif.Barrier
