import Verif.BlockRA.Lemmas
/-! C92: the blocking counter over the memory of C++ threads. -/
namespace Verif.BlockRA
open Verif.Common Verif.RelAcq

/-- States that can be reached when the accesses have the orders `c`. -/
abbrev Reached (c : Cfg) (s : State) : Prop := Reachable Init (step c) s

/-- The thread owns a unit of the counter, or its last `Dec` has not returned. -/
def Busy (p : Pc) : Prop := p = .work ∨ p = .notify ∨ p = .nlock

theorem strong_code : Strong theCode := ⟨rfl, rfl, rfl, rfl⟩

theorem inv_of {c : Cfg} (hc : Strong c) {s : State} (h : Reached c s) : Inv s := Reachable.invariant Inv inv_init (inv_step hc) h

/-- C92: what the workers did before `Dec` happens before what a thread does after `Wait`: no accesses race. For the orders of the code, and for any that are as
strong in the four places that matter. -/
theorem C92_no_race {c : Cfg} (hc : Strong c) {s : State} (h : Reached c s) : s.race = false := (inv_of hc h).race

/-- C92: when `Wait` has returned, nobody owns a unit. -/
theorem C92_wait_done {c : Cfg} (hc : Strong c) {s : State} (h : Reached c s) {t : Nat} (ht : s.th[t]? = some .got) (u : Nat) : s.th[u]? ≠ some .work := by
  intro hu
  have hI := inv_of hc h
  have h1 := (hI.good t _ ht).1
  have h2 := pos_of (f := Pc.isWork) hu rfl
  rw [← hI.q.cvEq] at h2
  omega

/-- C92, no lost wake-up: while a thread sleeps in `Wait`, someone owns a unit or is still in the `Dec` that wakes the sleepers. -/
theorem C92_no_lost_wakeup {c : Cfg} (hc : Strong c) {s : State} (h : Reached c s) {t : Nat} (ht : s.th[t]? = some .sleep) :
    ∃ (u : Nat) (p : Pc), s.th[u]? = some p ∧ Busy p := by
  have hI := inv_of hc h
  obtain ⟨h3, h2, hz⟩ := hI.good t _ ht
  have find : ∀ f : Pc → Bool, (∀ p, f p = true → Busy p) → 0 < s.th.countP f → ∃ (u : Nat) (p : Pc), s.th[u]? = some p ∧ Busy p := by
    intro f hf hpos
    obtain ⟨p, hp, hfp⟩ := List.countP_pos_iff.1 hpos
    obtain ⟨u, hu⟩ := List.getElem?_of_mem hp
    exact ⟨u, p, hu, hf p hfp⟩
  have hq := hI.q
  by_cases hcv : s.cv = 0
  · have hf : s.fired = true := hz.resolve_right (fun e => e hcv)
    by_cases hp : s.phase = 0
    · refine find Pc.isNotify (fun p hp => ?_) (by rw [hq.nt, if_pos ⟨hf, hp⟩]; omega)
      cases p <;> first | exact Or.inr (Or.inl rfl) | cases hp
    · have := hq.p3
      have hp1 : s.phase = 1 := by omega
      refine find Pc.isNlock (fun p hp => ?_) (by rw [hq.nl, if_pos hp1]; omega)
      cases p <;> first | exact Or.inr (Or.inr rfl) | cases hp
  · refine find Pc.isWork (fun p hp => ?_) (by rw [← hq.cvEq]; omega)
    cases p <;> first | exact Or.inl rfl | cases hp

/-- C92: when all is done, a thread that is in the loop of `Wait` sees it in the next round, whatever old values it could read before. -/
theorem C92_next_round {c : Cfg} (hc : Strong c) {s s1 s2 : State} (h : Reached c s) (hdone : ∀ (u : Nat) (p : Pc), s.th[u]? = some p → ¬ Busy p) {t ts ts' : Nat}
    (h1 : step c s (.prep t ts) = some s1) (h2 : step c s1 (.test t ts') = some s2) : s2.th[t]? = some (.won true) := by
  have hI := inv_of hc h
  have hI1 : Inv s1 := inv_of hc (.step h h1 trivial)
  simp only [step] at h1
  split at h1
  case isFalse => cases h1
  rename_i ht
  unfold doPrep at h1
  split at h1
  · cases h1
  rename_i v m hm
  cases h1
  have hlt := lt_of_get ht
  have hget : (s.th.set t (Pc.test (v / E)))[t]? = some (.test (v / E)) := List.getElem?_set_self hlt
  have hcv : s.cv = 0 := by
    rw [hI.q.cvEq]
    exact List.countP_eq_zero.2 fun p hp => by
      obtain ⟨u, hu⟩ := List.getElem?_of_mem hp
      have := hdone u p hu
      cases p <;> simp [Pc.isWork]
      exact this (Or.inl rfl)
  simp only [step, hget] at h2
  unfold doTest at h2
  split at h2
  · cases h2
  rename_i v' m' hm'
  cases h2
  obtain ⟨y, L, rfl⟩ := load_facts hm'
  have hy : y.val = 0 := by
    have hle := hI1.cnt.le ts' y L.src
    obtain ⟨z, k1, k2, _⟩ := hI1.cnt.last
    have k2 : z.val = s.cv := k2
    have htop : ts' = s.topC := by
      have hle : ts' ≤ s.topC := hle
      cases hf : s.fired with
      | false => have := hI.cnt.init hf hcv; omega
      | true =>
        rcases hI1.good t _ hget with hg | hg
        · have hg : v / E = 0 ∧ s.phase ≠ 3 := hg
          exfalso
          have hph : s.phase ≠ 0 := fun hp => by
            have hpos : 0 < s.th.countP Pc.isNotify := by rw [hI.q.nt, if_pos ⟨hf, hp⟩]; omega
            obtain ⟨p, hp, hfp⟩ := List.countP_pos_iff.1 hpos
            obtain ⟨u, hu⟩ := List.getElem?_of_mem hp
            refine hdone u p hu ?_
            cases p <;> first | exact Or.inr (Or.inl rfl) | cases hfp
          obtain ⟨y2, w2, L2, rfl⟩ := rmw_facts hm
          obtain ⟨_, hv⟩ := val_top hI.val L2
          rw [if_neg hph] at hv
          have := Nat.div_pos (a := y2.val) (b := E) (by omega) (by decide)
          omega
        · have hg : s.topC ≤ m.cur t .cnt := hg.2.2
          exact Nat.le_antisymm hle (Nat.le_trans hg L.may)
    have hsrc : m.msg .cnt s.topC = some y := by rw [← htop]; exact L.src
    have k1 : m.msg .cnt s.topC = some z := k1
    rw [hsrc] at k1; cases k1
    omega
  show ((s.th.set t (Pc.test (v / E))).set t _)[t]? = _
  rw [List.getElem?_set_self (by simpa using hlt), if_pos hy]

theorem witness (c : Cfg) (n k : Nat) (acts : List Act) (p : State → Bool) (hn : n + k < E)
    (h : (exec (step c) (startOf n k) acts).any p = true) : ∃ s : State, Reached c s ∧ p s = true := by
  cases he : exec (step c) (startOf n k) acts with
  | none => rw [he] at h; cases h
  | some s =>
    rw [he] at h
    exact ⟨s, Reachable.exec (.init ⟨n, k, hn, rfl⟩ trivial) acts he, by simpa using h⟩

/-- The worker 0 writes and calls `Dec`; the thread 1 calls `Wait` and reads. -/
def fast : List Act := [.write 0, .dec 0 0, .test0 1 1, .fence 1, .read 1]

/-- The worker 0 calls `Dec`, which finds no waiters, while thread 1 is in `Wait` with an old value. -/
def late : List Act := [.test0 1 0, .dec 0 0, .notify 0 0, .prep 1 1, .test 1 0, .lock 1 2]

/-- C92: each of the four orders is needed: without release in `Dec` or without the fence accesses race; without release in the notification or without acquire in `prepareWait` a
thread sleeps and nobody is left to wake it. -/
theorem C92_orders_needed (c : Cfg) (h : ¬ Strong c) :
    (∃ s : State, Reached c s ∧ s.race = true) ∨
    (∃ s : State, Reached c s ∧ s.th[1]? = some .sleep ∧ ∀ (u : Nat) (p : Pc), s.th[u]? = some p → ¬ Busy p) := by
  obtain ⟨da, dr, pa, pr, nr, fe⟩ := c
  have hcase : (dr = false ∨ fe = false) ∨ (pa = false ∨ nr = false) := by
    cases dr <;> cases fe <;> cases pa <;> cases nr <;> simp <;> exact h ⟨rfl, rfl, rfl, rfl⟩
  clear h
  rcases hcase with hc | hc
  · left
    refine witness _ 1 1 fast (·.race) (by decide) ?_
    rcases hc with rfl | rfl <;> revert da pa pr nr
    · revert fe; decide +kernel
    · revert dr; decide +kernel
  · right
    obtain ⟨s, h1, h2⟩ := witness ⟨da, dr, pa, pr, nr, fe⟩ 1 1 late (fun s => decide (s.th = [.idle, .sleep])) (by decide) (by
      rcases hc with rfl | rfl <;> revert da dr pr fe
      · revert nr; decide +kernel
      · revert pa; decide +kernel)
    have hth : s.th = [.idle, .sleep] := of_decide_eq_true h2
    refine ⟨s, h1, by rw [hth]; rfl, fun u p hu => ?_⟩
    rw [hth] at hu
    have hm := List.mem_of_getElem? hu
    simp only [List.mem_cons, List.not_mem_nil, or_false] at hm
    rcases hm with rfl | rfl <;> rintro (e | e | e) <;> cases e

/-- `WaitFor` and `WaitUntil` (synchronization.cc 123-127): the same condition, but `await_until` (synchronization.h 470-485) has no fence. Without the time limit itself. -/
def timedCode : Cfg := { theCode with fence := false }

/-- C96 is false for the code: `WaitFor` returns true and what the workers did before `Dec` does not happen before what follows it. -/
theorem C96_waitfor_races : ∃ s : State, Reached timedCode s ∧ s.race = true := witness timedCode 1 1 fast (·.race) (by decide) (by decide +kernel)

/-- C96 with an acquire fence in `await_until` (`Strong`); missing: the limit itself, and the code has no fence (`C96_waitfor_races`). -/
theorem C96_with_fence_partial {s : State} (h : Reached { timedCode with fence := true } s) : s.race = false := C92_no_race ⟨rfl, rfl, rfl, rfl⟩ h

/-- Two workers, one started by the other; a thread sleeps and is woken; another has an old value first. -/
def both : List Act :=
  [.test0 2 0, .prep 2 0, .test 2 0, .write 0, .add 0 1 0, .lock 2 1, .write 1, .dec 0 1, .dec 1 2, .notify 1 1, .section 1, .finish 2, .drop 2 2, .prep 2 3, .test 2 3,
   .fence 2, .drop 2 4, .read 2]

-- the hypotheses: a thread has returned from `Wait` and has read what two workers wrote
example : ∃ s : State, Reached theCode s ∧ decide (s.th = [.idle, .idle, .got] ∧ s.seen = true ∧ s.m.log (.data 0) = 1 ∧ s.m.log (.data 1) = 1) = true :=
  witness theCode 1 2 both _ (by decide) (by decide +kernel)
-- a thread sleeps
example : ∃ s : State, Reached theCode s ∧ decide (s.th = [.work, .work, .sleep]) = true :=
  witness theCode 1 2 (both.take 6) _ (by decide) (by decide +kernel)
-- all is done, and a thread with an old value is in the loop
example : ∃ s : State, Reached theCode s ∧ decide (s.th = [.idle, .prep]) = true :=
  witness theCode 1 1 (late.take 3) _ (by decide) (by decide +kernel)

end Verif.BlockRA
