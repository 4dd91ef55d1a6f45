import Verif.JoinRA.Lemmas
/-! C93: `Join` of a fiber over the memory of C++ threads. -/
namespace Verif.JoinRA
open Verif.Common Verif.RelAcq

/-- States that can be reached when the accesses have the orders `c`. -/
abbrev Reached (c : Cfg) (s : State) : Prop := Reachable Init (step c) s

theorem inv_of {c : Cfg} {s : State} (h : Reached c s) : Inv s :=
  Reachable.invariant Inv (fun s h => (inv_init s h).1) (fun s a s' hi hs => (inv_step2 c s a s' hi hs).1) h

/-- C93, false for the code (`C93_code_races`): what the fiber did happens before what is done after `Join`. Proved for the program in which the `fetch_or` of `Terminate` is also a release. -/
theorem C93_no_race_partial {c : Cfg} (hc : c.termRel = true) {s : State} (h : Reached c s) : s.race = false :=
  (Reachable.invariant (fun s => Inv s ∧ Data s) inv_init
    (fun s a s' hi hs => ⟨(inv_step2 c s a s' hi.1 hs).1, (inv_step2 c s a s' hi.1 hs).2 hc hi.2⟩) h).2.race

/-- C93: in the code, a fiber that was suspended in `Join` has what the joined fiber did in its view when it resumes. -/
theorem C93_woken_partial {c : Cfg} {s s' : State} (h : Reached c s) (hs : step c s .notify = some s') {i : Nat} (hi : s.th[i]? = some .sleep) :
    s'.th[i]? = some .ret ∧ s'.m.clear (i + 1) .data = true := by
  simp only [step] at hs
  split at hs <;> cases hs
  refine ⟨by simp [doNotify, hi, JPc.wake], decide_eq_true ?_⟩
  show s.m.log .data ≤ (if i + 1 ≠ 0 ∧ s.th[i + 1 - 1]? = some .sleep then join ((s.m.touch 0 .q).cur (i + 1)) ((s.m.touch 0 .q).cur 0) else (s.m.touch 0 .q).cur (i + 1)) .data
  rw [if_pos ⟨by omega, hi⟩]
  exact Nat.le_trans (inv_of h).mine (Nat.le_trans (touch_mono _ _ _ _ _) (le_join_right _ _ _))

/-- C93: in the code, a `Join` that begins after `Terminate` is over has it as well. -/
theorem C93_late_partial {c : Cfg} {s s' : State} (h : Reached c s) (hd : s.f = .done) {i ts : Nat} (hs : step c s (.join i ts) = some s') :
    s'.m.clear (i + 1) .data = true := by
  have hI := inv_of h
  simp only [step] at hs
  split at hs
  case isFalse => cases hs
  unfold doJoin at hs
  split at hs
  · cases hs
  rename_i v m hm
  cases hs
  obtain ⟨y, w, L, rfl⟩ := rmw_facts hm
  obtain ⟨_, hL⟩ := top_of hI L
  refine decide_eq_true ?_
  show m.log .data ≤ m.cur (i + 1) .data
  rw [L.log]
  exact Nat.le_trans (hL.fin hd) (L.acq rfl _)

/-- C93: the list of waiters is never accessed by two threads at once or without the one seeing what the other did. -/
theorem C93_queue_no_race {c : Cfg} {s : State} (h : Reached c s) : s.raceQ = false := (inv_of h).raceQ

/-- C93: nobody returns from `Join` before the fiber has begun to terminate. -/
theorem C93_ended {c : Cfg} {s : State} (h : Reached c s) {i : Nat} (hi : s.th[i]? = some .ret) : s.f ≠ .run := (inv_of h).w.gone i _ hi (Or.inr rfl)

/-- C93, no lost wake-up: while a fiber sleeps in `Join` (or is about to), the fiber that ends has yet to notify. -/
theorem C93_no_lost_wakeup {c : Cfg} {s : State} (h : Reached c s) {i : Nat} (hi : s.th[i]? = some .sleep) : s.f = .run ∨ s.f = .spin ∨ s.f = .own := by
  obtain ⟨a, b⟩ := (inv_of h).w.wait i _ hi rfl
  cases e : s.f with
  | run => exact Or.inl rfl
  | spin => exact Or.inr (Or.inl rfl)
  | own => exact Or.inr (Or.inr rfl)
  | clr => exact absurd e a
  | done => exact absurd e b

/-- Once `NotifyAll` has run nobody sleeps, and nobody will. -/
theorem C93_all_woken {c : Cfg} {s : State} (h : Reached c s) (hd : s.f = .clr ∨ s.f = .done) (i : Nat) : s.th[i]? ≠ some .sleep := by
  intro hi
  obtain ⟨a, b⟩ := (inv_of h).w.wait i _ hi rfl
  exact hd.elim a b

/-! ### The code races -/

theorem witness (c : Cfg) (acts : List Act) (p : State → Bool) (h : (exec (step c) (startOf 2) acts).any p = true) : ∃ s, Reached c s ∧ p s = true := by
  cases e : exec (step c) (startOf 2) acts with
  | none => rw [e] at h; cases h
  | some s => rw [e] at h; exact ⟨s, Reachable.exec (Reach.init ⟨2, rfl⟩ trivial) acts e, h⟩

/-- C93 is false for the code: `Join` sees `kTerminatedBit` while `Terminate` still has `kBusyBit`, returns at once, and nothing it has read was written with release. -/
theorem C93_code_races : ∃ s, Reached theCode s ∧ s.race = true :=
  witness theCode [.write, .term 0, .join 0 1, .read 0] (·.race) (by decide +kernel)

/-- It also happens to the `Join` that takes `kBusyBit`: the fiber that ends found it taken, and is in its loop. -/
theorem C93_code_races_free : ∃ s, Reached theCode s ∧ s.race = true ∧ s.f = .spin := by
  obtain ⟨s, h, hp⟩ := witness theCode [.write, .join 0 0, .term 1, .link 0, .clr 0 2, .join 1 3, .rel 1 4, .read 1] (fun s => s.race && decide (s.f = .spin)) (by decide +kernel)
  simp only [Bool.and_eq_true, decide_eq_true_eq] at hp
  exact ⟨s, h, hp⟩

/-- The release is what is missing: whatever the order of the other access. -/
theorem C93_release_needed {c : Cfg} : (∀ s, Reached c s → s.race = false) ↔ c.termRel = true := by
  constructor
  · intro h
    obtain ⟨a, b⟩ := c
    cases a
    · exfalso
      have hd : ∀ b, (exec (step ⟨false, b⟩) (startOf 2) [.write, .term 0, .join 0 1, .read 0]).any (·.race) = true := by decide +kernel
      obtain ⟨s, hs, hr⟩ := witness ⟨false, b⟩ _ _ (hd b)
      rw [h s hs] at hr; cases hr
    · rfl
  · exact fun hc s h => C93_no_race_partial hc h

/-! ### The hypotheses can be met -/

/-- A fiber sleeps in `Join` and is resumed; another comes late; both read. -/
example : ∃ s, Reached theCode s ∧ s.f = .done ∧ s.seen = true ∧ s.th = [.ret, .ret] ∧ s.race = false := by
  obtain ⟨s, h, hp⟩ := witness theCode [.write, .join 0 0, .link 0, .clr 0 1, .other 5 2, .term 3, .notify, .clr0 4, .read 0, .join 1 5, .rel 1 6, .read 1]
    (fun s => decide (s.f = .done) && s.seen && decide (s.th = [.ret, .ret]) && !s.race) (by decide +kernel)
  simp only [Bool.and_eq_true, decide_eq_true_eq, Bool.not_eq_true'] at hp
  exact ⟨s, h, hp.1.1.1, hp.1.1.2, hp.1.2, hp.2⟩

/-- The same accesses that race in the code, with the release. -/
example : ∃ s, Reached ⟨true, false⟩ s ∧ s.seen = true ∧ s.f = .own ∧ s.race = false := by
  obtain ⟨s, h, hp⟩ := witness ⟨true, false⟩ [.write, .term 0, .join 0 1, .read 0] (fun s => s.seen && decide (s.f = .own) && !s.race) (by decide +kernel)
  simp only [Bool.and_eq_true, decide_eq_true_eq, Bool.not_eq_true'] at hp
  exact ⟨s, h, hp.1.1, hp.1.2, hp.2⟩

/-- A fiber sleeps, the other is about to notify it. -/
example : ∃ s, Reached theCode s ∧ s.th[0]? = some .sleep ∧ s.f = .own ∧ (step theCode s .notify).isSome = true := by
  obtain ⟨s, h, hp⟩ := witness theCode [.write, .join 0 0, .link 0, .clr 0 1, .term 2]
    (fun s => decide (s.th[0]? = some JPc.sleep) && decide (s.f = .own) && (step theCode s .notify).isSome) (by decide +kernel)
  simp only [Bool.and_eq_true, decide_eq_true_eq] at hp
  exact ⟨s, h, hp.1.1, hp.1.2, hp.2⟩

end Verif.JoinRA
