import Verif.RefRA.Lemmas
/-! C94: reference counted handles over the memory of C++ threads. -/
namespace Verif.RefRA
open Verif.Common Verif.RelAcq

/-- States that can be reached when the accesses have the orders `c` and there are never 2^32 handles or more. -/
abbrev Reached (c : Cfg) (s : State) : Prop := Reach Init (step c) (fun s => handles s < W) s

theorem strong_code : Strong theCode := ⟨rfl, rfl⟩

theorem inv_of {c : Cfg} (hc : Strong c) {s : State} (h : Reached c s) : Inv s :=
  Reach.invariant Inv (fun s hi _ => inv_init s hi) (fun s a s' hI hq hst hq' => inv_step hc s a s' hq hq' hI hst) h

/-- C94: all that was done through any handle happens before the object is destroyed. -/
theorem C94_no_race {c : Cfg} (hc : Strong c) {s : State} (h : Reached c s) : s.race = false := (inv_of hc h).race

/-- C94: the object and its counter are never touched after that. -/
theorem C94_no_use_after_free {c : Cfg} (hc : Strong c) {s : State} (h : Reached c s) : s.uaf = false := (inv_of hc h).uaf

/-- C94: while there is a handle the object exists. -/
theorem C94_alive {c : Cfg} (hc : Strong c) {s : State} (h : Reached c s) {t : Nat} {x : Th} (hx : s.th[t]? = some x) (hr : 0 < x.refs) : s.freed = 0 :=
  (held (inv_of hc h) hx hr).2.2

/-- C94: it is destroyed at most once. -/
theorem C94_once {c : Cfg} (hc : Strong c) {s : State} (h : Reached c s) : s.freed ≤ 1 := by
  have := (inv_of hc h).one
  split at this <;> omega

/-- C94: when there are no handles left and nobody is in `intrusive_ptr_release`, it has been destroyed: nothing leaks. -/
theorem C94_no_leak {c : Cfg} (hc : Strong c) {s : State} (h : Reached c s) (hn : ∀ x ∈ s.th, x.refs = 0 ∧ x.pc = .use) : s.freed = 1 := by
  have := (inv_of hc h).one
  have h0 : handles s = 0 := by
    unfold handles
    rw [List.sum_eq_zero_iff_forall_eq_nat]
    intro k hk
    obtain ⟨x, hx, rfl⟩ := List.mem_map.1 hk
    exact (hn x hx).1
  have hb : busy s = 0 := by
    unfold busy
    rw [List.sum_eq_zero_iff_forall_eq_nat]
    intro k hk
    obtain ⟨x, hx, rfl⟩ := List.mem_map.1 hk
    exact if_pos (hn x hx).2
  rw [if_pos h0] at this
  omega

/-! ### The orders and the bound are needed -/

theorem witness (c : Cfg) (k n : Nat) (hk : 0 < k) (acts : List Act) (p : State → Bool) (h : (exec (step c) (startOf k n) acts).any p = true) :
    ∃ s, Reachable Init (step c) s ∧ p s = true := by
  cases e : exec (step c) (startOf k n) acts with
  | none => rw [e] at h; cases h
  | some s => rw [e] at h; exact ⟨s, Reachable.exec (.init ⟨k, n, hk, rfl⟩ trivial) acts e, h⟩

/-- As `exec`, if there are never too many handles. -/
def execB (c : Cfg) : State → List Act → Option State
  | s, [] => if handles s < W then some s else none
  | s, a :: as => if handles s < W then (step c s a).bind (execB c · as) else none

theorem execB_reach {c : Cfg} {s s' : State} {acts : List Act} (h : (handles s < W → Reached c s)) (he : execB c s acts = some s') : Reached c s' := by
  induction acts generalizing s with
  | nil => simp only [execB] at he; split at he <;> cases he; exact h ‹_›
  | cons a as ih =>
    simp only [execB] at he
    split at he
    · rename_i hw
      cases e : step c s a with
      | none => rw [e] at he; cases he
      | some s1 => rw [e] at he; exact ih (fun hb => .step (h hw) e hb) he
    · cases he

theorem witnessB (c : Cfg) (acts : List Act) (p : State → Bool) (h : (execB c (startOf 1 1) acts).any p = true) : ∃ s, Reached c s ∧ p s = true := by
  cases e : execB c (startOf 1 1) acts with
  | none => rw [e] at h; cases h
  | some s => rw [e] at h; exact ⟨s, execB_reach (fun hb => .init ⟨1, 1, by omega, rfl⟩ hb) e, h⟩

/-- Thread 1 gets a handle, uses the object and drops it; thread 0 drops the last one. -/
def story : List Act := [.copy 0 0, .give 0 1, .access 1, .drop 1 1, .drop 0 2, .fence 0, .free 0]

/-- C94: without the release or without the fence the destructor races. -/
theorem C94_orders_needed {c : Cfg} : (∀ s, Reached c s → s.race = false) ↔ c.rel = true ∧ c.fence = true := by
  constructor
  · intro h
    have hd : ∀ a b, (a && b) = false → (execB ⟨a, b⟩ (startOf 1 1) story).any (·.race) = true := by decide +kernel
    obtain ⟨a, b⟩ := c
    cases e : (a && b) with
    | true => simpa using e
    | false =>
      obtain ⟨s, hs, hr⟩ := witnessB ⟨a, b⟩ _ _ (hd a b e)
      rw [h s hs] at hr; cases hr
  · exact fun hc s h => C94_no_race hc h

/-- The counter has 32 bits: with 2^32 handles the object is destroyed under them. -/
theorem C94_bound_needed : ∃ s, Reachable Init (step theCode) s ∧ s.freed = 1 ∧ handles s = W := by
  obtain ⟨s, h, hp⟩ := witness theCode (W - 1) 1 (by decide) [.copy 0 0, .copy 0 1, .drop 0 2, .fence 0, .free 0]
    (fun s => decide (s.freed = 1) && decide (handles s = W)) (by decide +kernel)
  simp only [Bool.and_eq_true, decide_eq_true_eq] at hp
  exact ⟨s, h, hp⟩

/-! ### The hypotheses can be met -/

example : ∃ s, Reached theCode s ∧ (∀ x ∈ s.th, x.refs = 0 ∧ x.pc = .use) ∧ s.freed = 1 ∧ s.m.log (.data 1) = 1 := by
  obtain ⟨s, h, hp⟩ := witnessB theCode story (fun s => s.th.all (fun x => decide (x.refs = 0) && decide (x.pc = .use)) && decide (s.freed = 1) && decide (s.m.log (.data 1) = 1))
    (by decide +kernel)
  simp only [Bool.and_eq_true, decide_eq_true_eq, List.all_eq_true] at hp
  exact ⟨s, h, hp.1.1, hp.1.2, hp.2⟩

example : ∃ s, Reached theCode s ∧ s.th = [⟨1, .use⟩, ⟨2, .use⟩] ∧ s.freed = 0 := by
  obtain ⟨s, h, hp⟩ := witnessB theCode [.copy 0 0, .give 0 1, .copy 1 1] (fun s => decide (s.th = [⟨1, .use⟩, ⟨2, .use⟩]) && decide (s.freed = 0)) (by decide +kernel)
  simp only [Bool.and_eq_true, decide_eq_true_eq] at hp
  exact ⟨s, h, hp⟩

end Verif.RefRA
