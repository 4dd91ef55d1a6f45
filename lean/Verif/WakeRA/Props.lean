import Verif.WakeRA.Lemmas
/-! C86: wake-ups over the memory of C++ threads. -/
namespace Verif.WakeRA
open Verif.Common Verif.RelAcq

theorem quiet_add {s : State} (hq : Quiet s) {c : Cfg} (h : Inv c s) {k : Nat} (hk : k < s.next) : ∃ a, s.addAt k = some a := by
  cases ha : s.addAt k with
  | some a => exact ⟨a, rfl⟩
  | none =>
    obtain ⟨t, ht⟩ := h.open' k hk ha
    rw [hq t] at ht
    rcases ht with ht | ht <;> cases ht

/-- The thread of a step, for those that put tasks. -/
def Act.who : Act → Nat
  | .claim t | .fill t _ | .add t _ | .ring t => t
  | _ => 0

theorem step_other {c : Cfg} {s s' : State} {a : Act} {t : Nat} (h : step c s a = some s') (ht : a.who < t) : s'.ppc t = s.ppc t := by
  have aux : ∀ (u : Nat) (q : PPc), u < t → upd s.ppc u q t = s.ppc t := fun u q hu => upd_ne _ _ (by omega)
  cases a <;> simp only [step, Act.who, doLoad, doTake, doEmpty, doCas, doFail, doReset, doFill, doAdd] at h ht <;>
    (repeat' split at h) <;> first | (cases h; done) | (cases h; rfl) | (cases h; exact aux _ _ ht)

theorem exec_other {c : Cfg} {t : Nat} : ∀ (acts : List Act) {s s' : State}, (∀ a ∈ acts, a.who < t) → exec (step c) s acts = some s' → s'.ppc t = s.ppc t
  | [], s, s', _, h => by cases h; rfl
  | a :: acts, s, s', hw, h => by
    simp only [exec] at h
    split at h
    · cases h
    · rename_i s1 h1
      rw [exec_other acts (fun b hb => hw b (List.mem_cons_of_mem _ hb)) h, step_other h1 (hw a List.mem_cons_self)]

/-- To show that a state is reached: run the steps, and look at it. -/
theorem witness (c : Cfg) (acts : List Act) (n : Nat) (hn : ∀ a ∈ acts, a.who < n) (p : CPc) (tok pos next : Nat)
    (h : (exec (step c) start acts).any (fun s => decide (s.cpc = p ∧ s.tok = tok ∧ s.pos = pos ∧ s.next = next ∧ ∀ t < n, s.ppc t = .idle)) = true) :
    ∃ s, Reached c s ∧ s.cpc = p ∧ (s.tok = tok ∧ s.pos = pos ∧ s.next = next) ∧ Quiet s := by
  cases he : exec (step c) start acts with
  | none => rw [he] at h; cases h
  | some s =>
    rw [he] at h
    simp only [Option.any_some, decide_eq_true_eq] at h
    obtain ⟨h1, h2, h3, h4, h5⟩ := h
    refine ⟨s, Reachable.exec (.init rfl trivial) acts he, h1, ⟨h2, h3, h4⟩, fun t => ?_⟩
    rcases Nat.lt_or_ge t n with ht | ht
    · exact h5 t ht
    · rw [exec_other acts (fun a ha => Nat.lt_of_lt_of_le (hn a ha) ht) he]; rfl

/-- C86, the part that holds of the code: a proactor that sleeps, with no wake-up sent or on its way, has taken all tasks, or the
announcement of the next one was written over by the proactor's own store of 0. -/
theorem C86_asleep_partial {sync : Bool} {s : State} (h : Reached (theCode sync) s) (ha : Asleep s) : AllTaken s ∨ Overwritten s s.pos := by
  have hi := inv_reached rfl h
  obtain ⟨hw, ht, hq⟩ := ha
  obtain ⟨g1, g2, g3, g4, g5⟩ := hi.waits hw
  rcases Nat.eq_or_lt_of_le hi.posLe with hp | hp
  · exact Or.inl hp
  · obtain ⟨a, hx⟩ := quiet_add hq hi hp
    refine Or.inr ⟨a, hx, ?_⟩
    rcases Nat.lt_or_ge a s.base with h1 | h1
    · exact h1
    · exfalso
      have h2 := g4 a hx h1
      have h3 := hi.addTop _ _ hx
      rcases g5 (by omega) with h4 | ⟨t, h4⟩
      · omega
      · rw [hq t] at h4; cases h4

/-- C86 does not hold of the code: a store does not read what it writes over, so the proactor can set `tq_seq_` to 0 over the announcement
of a task that it has not seen, and go to sleep. This is so even if the event that woke it before carries the view of its sender. -/
theorem C86_lost_wakeup (sync : Bool) : ∃ s, Reached (theCode sync) s ∧ Asleep s ∧ ¬ AllTaken s := by
  obtain ⟨s, h1, h2, h3, h4⟩ := witness (theCode sync)
    [.load 0, .empty 0, .cas 0,
     .claim 1, .fill 1 1, .add 1 1, .ring 1, .claim 2, .fill 2 1,
     .wake, .add 2 2, .reset 4, .load 4, .take 1, .empty 0, .cas 4] 3 (by decide) .wait 0 1 2 (by cases sync <;> decide +kernel)
  exact ⟨s, h1, ⟨h2, h3.1, h4⟩, by unfold AllTaken; omega⟩

/-- C86, for comparison: had the reset been a read-modify-write, as `tq_seq_.exchange(0, acq_rel)`, no task could be missed. -/
theorem C86_with_exchange {c : Cfg} (h1 : c.addRel = true) (h2 : c.resetRmw = true) {s : State} (h : Reached c s) (ha : Asleep s) : AllTaken s := by
  have hi := inv_reached h1 h
  obtain ⟨hw, ht, hq⟩ := ha
  obtain ⟨g1, g2, g3, g4, g5⟩ := hi.waits hw
  rcases Nat.eq_or_lt_of_le hi.posLe with hp | hp
  · exact hp
  · exfalso
    obtain ⟨a, hx⟩ := quiet_add hq hi hp
    have h1 := g4 a hx (by rw [hi.rmwBase h2]; exact Nat.zero_le _)
    have h3 := hi.addTop _ _ hx
    rcases g5 (by omega) with h4 | ⟨t, h4⟩
    · omega
    · rw [hq t] at h4; cases h4

-- such a state is reached, with tasks taken
example (sync : Bool) : ∃ s, Reached ⟨true, true, sync⟩ s ∧ Asleep s ∧ 0 < s.next := by
  obtain ⟨s, h1, h2, h3, h4⟩ := witness ⟨true, true, sync⟩
    [.load 0, .empty 0, .cas 0, .claim 1, .fill 1 1, .add 1 1, .ring 1, .wake, .reset 2, .load 3, .take 1, .empty 0, .cas 3]
    2 (by decide) .wait 0 1 1 (by cases sync <;> decide +kernel)
  exact ⟨s, h1, ⟨h2, h3.1, h4⟩, by omega⟩

/-- C86: with a relaxed addition, which the comment in the code takes to be enough, tasks are missed even then. -/
theorem C86_relaxed_lost (sync : Bool) : ∃ s, Reached ⟨false, true, sync⟩ s ∧ Asleep s ∧ ¬ AllTaken s := by
  obtain ⟨s, h1, h2, h3, h4⟩ := witness ⟨false, true, sync⟩
    [.claim 1, .fill 1 1, .add 1 0, .load 1, .empty 0, .cas 1] 2 (by decide) .wait 0 0 1 (by cases sync <;> decide +kernel)
  exact ⟨s, h1, ⟨h2, h3.1, h4⟩, by unfold AllTaken; omega⟩

end Verif.WakeRA
