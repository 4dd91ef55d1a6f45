import Verif.Sync.Wake
import Verif.Sync.Short
/-!
# C20, C21, C51: `Mutex` and `CondVar`

The fibers run arbitrary client programs that follow the contract (`Disc`: see Spec.lean); theorems hold for every program, any
number of fibers and every interleaving of the atomic steps of the operations.
-/
namespace Verif.Sync
open Verif.Common
variable {G L C : Type} {P : Client G L C} {hold : L → Bool} {I : G → Prop} {J : L → Prop}

/-! ## C20 -/

/-- C20: at most one fiber has the mutex. -/
theorem C20_mutual_exclusion (hD : Disc P hold) (hJ : ∀ l, J l → hold l = false) {s : State G L} (h : Reachable (Init I J) (step P) s)
    {t u : Nat} (ht : Has hold s t) (hu : Has hold s u) : t = u := by
  have hm := (minv_reach hD hJ h).own
  have h1 := (hm t).2 ht
  have h2 := (hm u).2 hu
  rw [h1] at h2; exact Option.some.inj h2

/-- C20: in particular, two fibers are never in client code that holds the mutex. -/
theorem C20_critical_sections (hD : Disc P hold) (hJ : ∀ l, J l → hold l = false) {s : State G L}
    (h : Reachable (Init I J) (step P) s) {t u : Nat} (ht : Holds hold s t) (hu : Holds hold s u) : t = u :=
  C20_mutual_exclusion hD hJ h (by unfold Has; rw [ht.1]; exact ht.2) (by unfold Has; rw [hu.1]; exact hu.2)

/-- C20: if the mutex is free and a fiber is blocked on it, some fiber is about to attempt to take it, or the last `unlock` is
still about to wake one. -/
theorem C20_not_stranded (hD : Disc P hold) (hU : Untimed P) (hJ : ∀ l, J l → hold l = false) {s : State G L}
    (h : Reachable (Init I J) (step P) s) (hf : ∀ u, ¬ Has hold s u) {t : Nat} (ht : BlockedOnMutex s t) :
    ∃ u, u ≠ t ∧ (Retrying s u ∨ Handing s u) := by
  have hA := allinv_reach hD hU hJ h
  obtain ⟨k, hk⟩ := ht
  have ho : s.owner = none := by
    cases ho : s.owner with
    | none => rfl
    | some o => exact absurd ((hA.m.own o).1 ho) (hf o)
  have : ∃ u, cares (s.ep u) = true := by
    rcases hA.q.slp t k hk with h | ⟨u, k', hu⟩
    · exact hA.q.care ho (List.ne_nil_of_mem h)
    · exact ⟨u, by rw [hu]; rfl⟩
  obtain ⟨u, hu⟩ := this
  refine ⟨u, by rintro rfl; rw [hk] at hu; simp [cares] at hu, ?_⟩
  unfold Retrying Handing
  cases he : s.ep u <;> simp_all [cares]

/-- C20: when nothing is going on inside the operations, a fiber is blocked on the mutex only if another fiber's program holds it. -/
theorem C20_blocked_only_by_holder (hD : Disc P hold) (hU : Untimed P) (hJ : ∀ l, J l → hold l = false) {s : State G L}
    (h : Reachable (Init I J) (step P) s) (hq : Quiet s) {t : Nat} (ht : BlockedOnMutex s t) : ∃ u, u ≠ t ∧ Holds hold s u := by
  have hA := allinv_reach hD hU hJ h
  apply Classical.byContradiction
  intro hn
  have hf : ∀ u, ¬ Has hold s u := by
    intro u hu
    obtain ⟨k, hk⟩ := ht
    rcases hq u with he | ⟨k', he⟩ | ⟨tm, he⟩
    · refine hn ⟨u, ?_, he, ?_⟩
      · rintro rfl; rw [he] at hk; cases hk
      · unfold Has at hu; rw [he] at hu; exact hu
    · unfold Has at hu; rw [he] at hu; simp [has] at hu
    · unfold Has at hu; rw [he] at hu; simp [has] at hu
  obtain ⟨u, -, h | h⟩ := C20_not_stranded hD hU hJ h hf ht
  · obtain ⟨k, hk⟩ := h; rcases hq u with he | ⟨k', he⟩ | ⟨tm, he⟩ <;> simp [he] at hk
  · obtain ⟨k, hk⟩ := h; rcases hq u with he | ⟨k', he⟩ | ⟨tm, he⟩ <;> simp [he] at hk

/-- C20: if something is going on inside an operation, some fiber inside an operation can take a step: spinning fibers wait for a
fiber that moves. -/
theorem C20_never_stuck (hD : Disc P hold) (hJ : ∀ l, J l → hold l = false) (c : C) {s : State G L}
    (h : Reachable (Init I J) (step P) s) (hq : ¬ Quiet s) :
    ∃ u s', s.ep u ≠ .cl ∧ step P s (.go u c) = some s' := by
  have hm := minv_reach hD hJ h
  have hn := ni_reach h
  have mv : ∀ u, s.ep u ≠ .cl → (∀ k, s.ep u ≠ .lSleep k) → (∀ k, s.ep u ≠ .cSleep k) →
      (s.spin = none ∨ inSpin (s.ep u) = true) → ∃ s', step P s (.go u c) = some s' := by
    intro u h1 h2 h3 h4
    have hu : u < s.n := by
      apply Classical.byContradiction; intro hh; exact h1 (hn u (by omega))
    simp only [step, hu, if_true, h1, if_false]
    cases he : s.ep u <;> simp only [stepEp] <;> (try (simp_all [inSpin]; done)) <;> repeat' split
    all_goals first
      | exact ⟨_, rfl⟩
      | (simp_all [inSpin]; done)
  simp only [Quiet, Classical.not_forall] at hq
  obtain ⟨t, ht⟩ := hq
  simp only [not_or, not_exists] at ht
  obtain ⟨h1, h2, h3⟩ := ht
  cases hs : s.spin with
  | none => obtain ⟨s', hs'⟩ := mv t h1 h2 h3 (.inl hs); exact ⟨t, s', h1, hs'⟩
  | some u =>
    have hu := (hm.spin u).1 hs
    have k1 : s.ep u ≠ .cl := by intro h; rw [h] at hu; simp [inSpin] at hu
    obtain ⟨s', hs'⟩ := mv u k1 (by intro k h; rw [h] at hu; simp [inSpin] at hu) (by intro k h; rw [h] at hu; simp [inSpin] at hu) (.inr hu)
    exact ⟨u, s', k1, hs'⟩

/-- C20: `try_lock` takes the mutex exactly if no fiber has it at the moment it looks. -/
theorem C20_try_lock (hD : Disc P hold) (hJ : ∀ l, J l → hold l = false) {s s' : State G L} {t : Nat} {c : C}
    (h : Reachable (Init I J) (step P) s) (ht : s.ep t = .tCs) (hs : step P s (.go t c) = some s') :
    ((∀ u, ¬ Has hold s u) → s'.ep t = .tRel true ∧ Has hold s' t) ∧ ((∃ u, Has hold s u) → s'.ep t = .tRel false ∧ s'.owner = s.owner) := by
  have hm := (minv_reach hD hJ h).own
  simp only [step, ht] at hs
  split at hs
  · simp only [reduceCtorEq, if_false, stepEp] at hs
    split at hs
    · rename_i ho
      simp only [Option.some.injEq] at hs; subst hs
      refine ⟨fun _ => ?_, fun ⟨u, hu⟩ => ?_⟩
      · simp [Has, has]
      · rw [(hm u).2 hu] at ho; cases ho
    · rename_i o ho
      simp only [Option.some.injEq] at hs; subst hs
      refine ⟨fun hf => absurd ((hm o).1 ho) (hf o), fun _ => ?_⟩
      simp [State.setEp]
  · cases hs

/-- C20: no CHECK of the mutex fails, and no fiber ever leaves a wait-queue entry behind. -/
theorem C20_never_bad (hD : Disc P hold) (hU : Untimed P) (hJ : ∀ l, J l → hold l = false) {s : State G L}
    (h : Reachable (Init I J) (step P) s) : s.bad = false := (allinv_reach hD hU hJ h).v.bad

/-! ## C21 -/

/-- C21: fibers that notify and wait while holding the mutex never access the condition variable's queue at the same time. -/
theorem C21_no_race (hD : Disc P hold) (hL : NotifyLocked P hold) (hJ : ∀ l, J l → hold l = false) {s : State G L}
    (h : Reachable (Init I J) (step P) s) : ¬ Racing P s := by
  rintro ⟨t, u, -, -, hne, ht, hu⟩
  have hc := cinv_reach h
  have key : ∀ v, Touches P s v → Has hold s v := by
    intro v hv
    have := hc v
    unfold Has
    rcases hv with ⟨h1, tm, h2⟩ | ⟨o, h1⟩ | ⟨a, b, h1⟩ | ⟨w, h1⟩ <;> rw [h1] at this ⊢
    · exact (hD.wait _ true _ h2).1
    · rfl
    · exact hL _ _ this
    · exact hL _ _ this
  exact hne (C20_mutual_exclusion hD hJ h (key t ht) (key u hu))

/-- C21: a fiber that has called `wait` and was not notified can be found by a notification (or one is on its way to it): there is no window in
which it has given up the mutex but is not in the queue. -/
theorem C21_no_window (hD : Disc P hold) (hU : Untimed P) (hJ : ∀ l, J l → hold l = false) {s : State G L}
    (h : Reachable (Init I J) (step P) s) {t : Nat} (ht : Unnotified s t) : t ∈ s.cq ∨ ∃ u all, s.ep u = .nAct all t :=
  (allinv_reach hD hU hJ h).v.out t ((unn_iff s t).1 ht)

theorem unn_retn (s : State G L) (t u : Nat) (b : Bool) (h : unn ((State.retn P s u b).ntf t) ((State.retn P s u b).ep t) = true) :
    t ≠ u ∧ unn (s.ntf t) (s.ep t) = true := by
  simp only [State.retn, upd_apply] at h
  split at h
  · simp [unn, inU] at h
  · rename_i hne; exact ⟨hne, h⟩

/-- C21: when a `notify_all` issued under the mutex returns, no fiber that had called `wait` is left unnotified. -/
theorem C21_notify_all (hD : Disc P hold) (hU : Untimed P) (hL : NotifyLocked P hold) (hJ : ∀ l, J l → hold l = false) {s s' : State G L}
    (h : Reachable (Init I J) (step P) s) {u : Nat} {c : C} {any : Bool} (hu : s.ep u = .nGo true any)
    (hs : step P s (.go u c) = some s') (hr : s'.ep u = .cl) (t : Nat) : ¬ Unnotified s' t := by
  have hA := allinv_reach hD hU hJ h
  intro ht
  rw [unn_iff] at ht
  simp only [step, hu] at hs
  split at hs
  · simp only [reduceCtorEq, if_false, stepEp] at hs
    split at hs
    · rename_i hq
      simp only [Option.some.injEq] at hs; subst hs
      obtain ⟨h1, h2⟩ := unn_retn s t u any ht
      rcases hA.v.out t h2 with h3 | ⟨v, all, h3⟩
      · simp [hq] at h3
      · have c1 := hA.c v
        have c2 := hA.c u
        rw [h3] at c1; rw [hu] at c2
        have e : v = u := C20_mutual_exclusion hD hJ h (by unfold Has; rw [h3]; exact hL _ _ c1) (by unfold Has; rw [hu]; exact hL _ _ c2)
        subst e; rw [hu] at h3; cases h3
    · simp only [Option.some.injEq] at hs; subst hs; simp at hr
  · cases hs

/-- C21: a `notify` that looks at the queue while a fiber is waiting unnotified takes one of them. If there is only one, it takes that one. -/
theorem C21_notify_takes (hD : Disc P hold) (hU : Untimed P) (hL : NotifyLocked P hold) (hJ : ∀ l, J l → hold l = false) {s s' : State G L}
    (h : Reachable (Init I J) (step P) s) {u : Nat} {c : C} {all any : Bool} (hu : s.ep u = .nGo all any)
    (hs : step P s (.go u c) = some s') {t : Nat} (ht : Unnotified s t) :
    ∃ w, s'.ep u = .nAct all w ∧ Unnotified s w ∧ ((∀ v, Unnotified s v → v = t) → w = t) := by
  have hA := allinv_reach hD hU hJ h
  rw [unn_iff] at ht
  simp only [step, hu] at hs
  split at hs
  · simp only [reduceCtorEq, if_false, stepEp] at hs
    split at hs
    · rename_i hq
      exfalso
      rcases hA.v.out t ht with h3 | ⟨v, all', h3⟩
      · simp [hq] at h3
      · have c1 := hA.c v
        have c2 := hA.c u
        rw [h3] at c1; rw [hu] at c2
        have e : v = u := C20_mutual_exclusion hD hJ h (by unfold Has; rw [h3]; exact hL _ _ c1) (by unfold Has; rw [hu]; exact hL _ _ c2)
        subst e; rw [hu] at h3; cases h3
    · rename_i w q hq
      simp only [Option.some.injEq] at hs; subst hs
      have hw : Unnotified s w := (unn_iff s w).2 (hA.v.inq w (by simp [hq]))
      exact ⟨w, by simp, hw, fun hv => hv w hw⟩
  · cases hs

/-- C21: the fiber it took is then made runnable: it is no longer waiting, and will go on to relock the mutex. -/
theorem C21_notify_wakes (hD : Disc P hold) (hU : Untimed P) (hJ : ∀ l, J l → hold l = false) {s s' : State G L}
    (h : Reachable (Init I J) (step P) s) {u w : Nat} {c : C} {all : Bool} (hu : s.ep u = .nAct all w)
    (hs : step P s (.go u c) = some s') :
    Unnotified s w ∧ ¬ Unnotified s' w ∧ ((∃ tm, s'.ep w = .cWoken tm false) ∨ (inU (s'.ep w) = true ∧ s'.ntf w = true)) := by
  have hA := allinv_reach hD hU hJ h
  obtain ⟨-, hw⟩ := hA.v.act u all w hu
  refine ⟨(unn_iff s w).2 hw, ?_⟩
  have hne : w ≠ u := by rintro rfl; rw [hu] at hw; simp [unn, inU] at hw
  rw [unn_iff]
  have e1 : s'.ep w = (s.activate w).ep w ∧ s'.ntf w = (s.activate w).ntf w := by
    simp only [step, hu] at hs
    split at hs
    · simp only [reduceCtorEq, if_false, stepEp] at hs
      split at hs <;> simp only [Option.some.injEq] at hs <;> subst hs <;> simp [State.setEp, State.retn, upd_apply, hne]
    · cases hs
  rw [e1.1, e1.2]
  rcases activate_v hw with ⟨tm, h1, h2⟩ | ⟨h1, h2⟩
  · rw [h2]; simp [State.setEp, unn, inU]
  · rw [h2]; simp [unn_true h1, h1]

/-- C21: no lost wake-up. In a program in which fibers wait for a condition, re-checked under the mutex, that others change under the mutex
and then `notify_all` (`Signals`), a fiber that is waiting although its condition is true will be notified: another fiber still has
to call `notify_all`, or is just about to activate it. -/
theorem C21_no_lost_wakeup (hD : Disc P hold) (hU : Untimed P) (hJ : ∀ l, J l → hold l = false ∧ ∀ tm, P.call l ≠ .wait tm)
    {cond : G → L → Prop} {obl : L → Prop} (hS : Signals P hold cond obl) {s : State G L} (h : Reachable (Init I J) (step P) s)
    {t : Nat} (ht : Unnotified s t) (hc : cond s.g (s.cl t)) : (∃ u, obl (s.cl u)) ∨ ∃ u all, s.ep u = .nAct all t :=
  (winv_reach hD hU hJ hS h).wait t ((unn_iff s t).1 ht) hc

/-! ## Examples: the hypotheses are met -/

/-- Two fibers; one holds the mutex, the other is blocked on it, and everything is quiet otherwise. -/
example : ∃ s, Reachable (Init (fun _ => True) (fun l => l.has = false)) (step script0) s ∧
    Holds Scr.has s 0 ∧ BlockedOnMutex s 1 :=
  run_ex () 2 (scripts [[.lock, .unlock], [.lock, .unlock]]) trivial (fun _ => rfl) (gos [0, 0, 0, 0, 1, 1, 1, 1])
    (fun s => decide (s.ep 0 = .cl ∧ (s.cl 0).has = true ∧ s.ep 1 = .lSleep .lock))
    (fun s h => by have := of_decide_eq_true h; exact ⟨⟨this.1, this.2.1⟩, _, this.2.2⟩) (by decide +kernel)

/-- The mutex is free, fiber 1 is blocked on it, fiber 0 is about to wake it. -/
example : ∃ s, Reachable (Init (fun _ => True) (fun l => l.has = false)) (step script0) s ∧
    s.owner = none ∧ BlockedOnMutex s 1 ∧ Handing s 0 :=
  run_ex () 2 (scripts [[.lock, .unlock], [.lock, .unlock]]) trivial (fun _ => rfl) (gos [0, 0, 0, 0, 1, 1, 1, 1, 0, 0, 0])
    (fun s => decide (s.owner = none ∧ s.ep 1 = .lSleep .lock ∧ s.ep 0 = .uNtf .unlock))
    (fun s h => by have := of_decide_eq_true h; exact ⟨this.1, ⟨_, this.2.1⟩, _, .inl this.2.2⟩) (by decide +kernel)

/-- A `try_lock` about to look at a mutex that fiber 0 has. -/
example : ∃ s, Reachable (Init (fun _ => True) (fun l => l.has = false)) (step script0) s ∧ s.ep 1 = .tCs ∧ Has Scr.has s 0 :=
  run_ex () 2 (scripts [[.lock, .unlock], [.tryLock]]) trivial (fun _ => rfl) (gos [0, 0, 0, 0, 1, 1])
    (fun s => decide (s.ep 1 = .tCs ∧ s.ep 0 = .cl ∧ (s.cl 0).has = true))
    (fun s h => by have := of_decide_eq_true h; exact ⟨this.1, by unfold Has; rw [this.2.1]; exact this.2.2⟩) (by decide +kernel)

/-- Two fibers wait; a third is about to look at the queue to notify all. -/
example : ∃ s, Reachable (Init (fun _ => True) (fun l => l.has = false)) (step script0) s ∧
    s.ep 2 = .nGo true false ∧ Unnotified s 0 ∧ Unnotified s 1 :=
  run_ex () 3 (scripts [[.lock, .wait false, .unlock], [.lock, .wait false, .unlock], [.lock, .notify true, .unlock]]) trivial (fun _ => rfl)
    (gos [0, 0, 0, 0, 0, 0, 0, 0, 0, 1, 1, 1, 1, 1, 1, 1, 1, 1, 2, 2, 2, 2, 2])
    (fun s => decide (s.ep 2 = .nGo true false ∧ s.ep 0 = .cSleep false ∧ s.ep 1 = .cSleep false))
    (fun s h => by have := of_decide_eq_true h; exact ⟨this.1, .inl ⟨_, this.2.1⟩, .inl ⟨_, this.2.2⟩⟩) (by decide +kernel)

/-- The notifier has looked at the queue for the last time after waking both, and returns. -/
example : ∃ s, Reachable (Init (fun _ => True) (fun l => l.has = false)) (step script0) s ∧
    s.ep 2 = .nGo true true ∧ s.cq = [] ∧ s.ep 0 = .cWoken false false ∧ s.ep 1 = .cWoken false false :=
  run_ex () 3 (scripts [[.lock, .wait false, .unlock], [.lock, .wait false, .unlock], [.lock, .notify true, .unlock]]) trivial (fun _ => rfl)
    (gos [0, 0, 0, 0, 0, 0, 0, 0, 0, 1, 1, 1, 1, 1, 1, 1, 1, 1, 2, 2, 2, 2, 2, 2, 2, 2, 2])
    (fun s => decide (s.ep 2 = .nGo true true ∧ s.cq = [] ∧ s.ep 0 = .cWoken false false ∧ s.ep 1 = .cWoken false false))
    (fun s h => of_decide_eq_true h) (by decide +kernel)

example : Disc script0 Scr.has ∧ Untimed script0 ∧ NotifyLocked script0 Scr.has := ⟨script0_disc, script0_untimed, script0_locked⟩

/-! ## C51: timed waits -/

/-- C51 (what holds): mutual exclusion also holds for programs with timed waits. Missing: the integrity of the mutex's wait queue, which is
false (`C51_timed_wait_corrupts`). -/
theorem C51_exclusion_partial (hD : Disc P hold) (hJ : ∀ l, J l → hold l = false) {s : State G L} (h : Reachable (Init I J) (step P) s)
    {t u : Nat} (ht : Holds hold s t) (hu : Holds hold s u) : t = u := C20_critical_sections hD hJ h ht hu

/-- C51 is false. A fiber's `wait_until` times out; while it is suspended relocking the mutex, the holder calls `notify_one`, which finds the
fiber still in the condition variable's queue and activates it. The fiber resumes inside `Mutex::lock` with its waiter still linked in the
mutex's queue, and destroys it there: the queue now contains a dangling entry. The program follows the contract, and all notifications are
made under the mutex. -/
theorem C51_timed_wait_corrupts : Disc script Scr.has ∧ NotifyLocked script Scr.has ∧
    ∃ s, Reachable (Init (fun _ => True) (fun l => l.has = false)) (step script) s ∧ s.bad = true :=
  ⟨script_disc, script_locked,
    run_ex () 2 (scripts [[.lock, .wait true, .unlock], [.lock, .notify false, .unlock]]) trivial (fun _ => rfl)
      (gos [0, 0, 0, 0, 0, 0, 0, 0, 0] ++ [.timer 0] ++ gos [1, 1, 1, 1] ++ gos [0, 0, 0, 0] ++ gos [1, 1, 1] ++ gos [0])
      (fun s => s.bad) (fun s h => h) (by decide +kernel)⟩

end Verif.Sync
