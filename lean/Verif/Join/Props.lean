import Verif.Join.Progress
/-!
# C28, C46: joining a fiber, and its reference count

Any number of other fibers, on any threads, copy, move and release handles on the target and join it, in any interleaving with its
termination and destruction.
-/
namespace Verif.Join
open Verif.Common

/-! ## C28 -/

/-- C28: `Join` returns only after the target's function has returned. -/
theorem C28_returns_after_end {s : State} (h : Reachable Init step s) {t : Nat} (ht : Returned s t) : Ended s := by
  have hq := (q_reach h).1
  exact (hq.tT (hq.rT t (.inl ht))).1

/-- C28: a fiber asleep in `Join` is in the wait list, or its wake-up is what the target does next. -/
theorem C28_asleep_is_listed {s : State} (h : Reachable Init step s) {t : Nat} (ht : Asleep s t) : t ∈ s.jq ∨ s.fpc = .act t :=
  (q_reach h).1.q3 t ht.1 ht.2

/-- C28: once the target has woken the list, no fiber is asleep in `Join`, none is in the list, and none is about to enter it. -/
theorem C28_never_late {s : State} (h : Reachable Init step s) (hw : WokeAll s) :
    s.jq = [] ∧ ∀ t, ¬ Asleep s t ∧ s.jpc t ≠ .link := by
  have hq := (q_reach h).1
  have he := hq.qe hw
  refine ⟨he, fun t => ⟨fun ha => ?_, fun hl => ?_⟩⟩
  · rcases hq.q3 t ha.1 ha.2 with h1 | h1
    · rw [he] at h1; simp at h1
    · rcases hw with h2 | h2 | h2 <;> rw [h2] at h1 <;> cases h1
  · have := hq.le t (.inl hl)
    rcases hw with h2 | h2 | h2 <;> simp [h2, early] at this

/-- C28: once the target's function has returned, every call of `Join` can return, by steps of the target and of fibers already
inside `Join`: no further call is needed. -/
theorem C28_returns {s : State} (h : Reachable Init step s) (he : Ended s) {t : Nat} (ht : InJoin s t) :
    ∃ acts s', (∀ a ∈ acts, Inner a) ∧ exec step s acts = some s' ∧ Returned s' t :=
  can_join (q_reach h) he ht

/-- C28: a fiber that calls `Join` when the target has announced its end does not wait for anybody: it returns within two of its
own steps. -/
theorem C28_prompt {s : State} (hT : s.flagT = true) {t : Nat} (ht : s.jpc t = .try_) :
    ∃ s1, step s (.j t) = some s1 ∧ (Returned s1 t ∨ ∃ s2, step s1 (.j t) = some s2 ∧ Returned s2 t) := by
  cases hb : s.flagB with
  | true =>
    refine ⟨{ s.touch with flagB := true, jpc := upd s.jpc t .ret }, ?_, .inl (by simp [Returned])⟩
    simp only [step, stepJ, ht, hT, hb, if_true]
  | false =>
    refine ⟨{ s.touch with flagB := true, jpc := upd s.jpc t .rel }, ?_, .inr ⟨_, (by simp only [step, stepJ, upd_same]; rfl), ?_⟩⟩
    · simp only [step, stepJ, ht, hT, hb, if_true, Bool.false_eq_true, if_false]
    · simp [Returned]

/-- C28: the wake-up given to a fiber is for its own `Join` of a target that has ended. -/
theorem C28_wake {s : State} (h : Reachable Init step s) {t : Nat} (ht : s.wake t = true) : s.jpc t = .susp ∧ Ended s := by
  have hq := (q_reach h).1
  exact ⟨hq.wk t ht, (hq.tT (hq.wT t ht)).1⟩

/-! ## C46 -/

/-- C46: a fiber is destroyed at most once. -/
theorem C46_once {s : State} (h : Reach Init step Few s) : s.dtors ≤ 1 := (r_reach h).2.d1

/-- C46: destruction starts only when no handle is left, the function has returned, the fiber has switched away for good and its
scheduler has released it. -/
theorem C46_not_early {s : State} (h : Reach Init step Few s) (hd : s.dtors ≠ 0) : s.hold = [] ∧ ¬ OwnRef s := by
  have hr := (r_reach h).2
  by_cases ho : OwnRef s
  · exact absurd (hr.own ho).2 hd
  · refine ⟨?_, ho⟩
    apply Classical.byContradiction
    intro hn
    exact hd (dtors_hold hr hn)

/-- C46: in particular the memory of the fiber is there while it runs or a handle exists. -/
theorem C46_alive {s : State} (h : Reach Init step Few s) (ho : OwnRef s ∨ s.hold ≠ []) : s.mem = .live := by
  have hr := (r_reach h).2
  rcases ho with ho | ho
  · exact live_own hr ho
  · exact (hr.d0 (dtors_hold hr ho)).1

/-- C46: the last release does destroy: with no reference left, destruction has started, and it always can be completed. -/
theorem C46_last_destroys {s : State} (h : Reach Init step Few s) (ho : ¬ OwnRef s) (hh : s.hold = []) :
    s.dtors = 1 ∧ (s.mem = .freed ∨ ∃ s', step s .x = some s') := by
  have hr := (r_reach h).2
  have h1 : s.fpc = .out := by unfold OwnRef at ho; grind
  have h2 : s.tq = false := by unfold OwnRef at ho; grind
  have h3 : s.popped = false := by unfold OwnRef at ho; grind
  have hd : s.dtors = 1 := by have := (hr.dz h1 h2 h3).1 hh; have := hr.d1; omega
  refine ⟨hd, ?_⟩
  cases hx : s.dpc with
  | none => exact .inl (hr.mf hd hx)
  | move | dtor | resume => exact .inr ⟨_, by simp only [step, stepX, hx]; rfl⟩

/-- C46: no operation touches the fiber after its destructor, notifies a waiter that is not there, or fails a check of the
destructor; and the jump point is in place when the last release resumes the old stack. -/
theorem C46_never_bad {s : State} (h : Reach Init step Few s) : s.bad = false := (r_reach h).2.ok

/-- Copying a handle `k` times. -/
theorem copies (c : Nat) : ∀ k, Reachable Init step { start c with use := (2 + k) % 2 ^ 32, hold := List.replicate (k + 1) c } := by
  intro k
  induction k with
  | zero => exact .init ⟨c, rfl⟩ trivial
  | succ k ih =>
    refine .step ih (a := .copy c) ?_ trivial
    have e : ((2 + k) % 2 ^ 32 + 1) % 2 ^ 32 = (2 + (k + 1)) % 2 ^ 32 := by omega
    simp only [step, start, List.mem_replicate, State.touch, e]
    simp [List.replicate_succ]

/-- The bound on the number of handles is needed: with `2 ^ 32` of them the count is 1, and releasing one destroys the fiber. -/
theorem C46_overflow : ∃ s, Reachable Init step s ∧ s.dtors = 1 ∧ s.hold ≠ [] ∧ OwnRef s := by
  have h := copies 0 (2 ^ 32 - 1)
  have e : (2 + (2 ^ 32 - 1)) % 2 ^ 32 = 1 := by decide
  have e2 : 2 ^ 32 - 1 + 1 = 2 ^ 32 := by decide
  rw [e, e2] at h
  generalize hl : List.replicate (2 ^ 32) 0 = l at h
  have hm : 0 ∈ l := by subst hl; rw [List.mem_replicate]; exact ⟨by decide, rfl⟩
  have hlen : l.length = 2 ^ 32 := by subst hl; exact List.length_replicate
  refine ⟨_, .step h (a := .drop 0) (s' := ?_) ?_ trivial, ?_⟩
  rotate_left
  · simp only [step]
    rw [if_pos ⟨rfl, hm⟩]
  · refine ⟨by simp [State.release, State.touch, start], ?_, by left; simp [State.release, State.touch, start]⟩
    dsimp only
    intro hn
    have := nodup_count hm
    rw [hn, hlen] at this
    simp at this

/-! ### Executions that meet the hypotheses -/

/-- A run of the model given as a list of moves, all within the bound on handles. -/
theorem run_ex {P : State → Prop} (c : Nat) (acts : List Act) (chk : State → Bool) (hP : ∀ s, chk s = true → P s)
    (h : (match exec step (start c) acts with | some s => chk s | none => false) = true) :
    ∃ s, Reachable Init step s ∧ P s := by
  cases he : exec step (start c) acts with
  | none => simp [he] at h
  | some s =>
    rw [he] at h
    exact ⟨s, Reachable.exec (.init ⟨c, rfl⟩ trivial) acts he, hP s h⟩

/-- Fibers 0 and 1 join; 0 is linked before the end, 1 arrives while the target waits for the lock; both return. -/
example : ∃ s, Reachable Init step s ∧ (Returned s 0 ∧ Returned s 1 ∧ s.fpc = .ntf) :=
  run_ex 0 [.copy 0, .give 0 1, .join 0, .join 1, .j 0, .j 0, .f, .f, .f, .j 1, .j 0, .f, .f, .f, .j 0]
    (fun s => decide (s.jpc 0 = .ret ∧ s.jpc 1 = .ret ∧ s.fpc = .ntf))
    (fun s h => by have := of_decide_eq_true h; exact this) (by decide +kernel)

/-- A fiber asleep in `Join`, another one about to link, while the target has ended. -/
example : ∃ s, Reachable Init step s ∧ (Asleep s 0 ∧ InJoin s 1 ∧ s.jpc 1 = .link ∧ Ended s) :=
  run_ex 0 [.copy 0, .give 0 1, .join 0, .join 1, .j 0, .j 0, .j 0, .j 1, .f, .f, .f]
    (fun s => decide ((s.jpc 0 = .susp ∧ s.wake 0 = false) ∧ (s.jpc 1 ≠ .idle ∧ s.jpc 1 ≠ .ret) ∧ s.jpc 1 = .link ∧ s.fpc ≠ .run))
    (fun s h => by have := of_decide_eq_true h; exact this) (by decide +kernel)

/-- As `run_ex`, staying within the bound on handles. -/
theorem run_few {P : State → Prop} (c : Nat) (acts : List Act) (chk : State → Bool) (hP : ∀ s, chk s = true → P s)
    (h : (match exec (fun s a => (step s a).bind fun s' => if s'.hold.length + 1 < 2 ^ 32 then some s' else none) (start c) acts with
      | some s => chk s | none => false) = true) :
    ∃ s, Reach Init step Few s ∧ P s := by
  have key : ∀ (acts : List Act) {s s' : State}, Reach Init step Few s →
      exec (fun s a => (step s a).bind fun s' => if s'.hold.length + 1 < 2 ^ 32 then some s' else none) s acts = some s' →
      Reach Init step Few s' := by
    intro acts
    induction acts with
    | nil => intro s s' hr he; simp only [exec, Option.some.injEq] at he; exact he ▸ hr
    | cons a acts ih =>
      intro s s' hr he
      simp only [exec] at he
      cases hs : step s a with
      | none => simp [hs] at he
      | some s1 =>
        simp only [hs, Option.bind_some] at he
        by_cases hf : s1.hold.length + 1 < 2 ^ 32
        · rw [if_pos hf] at he; exact ih (.step hr hs hf) he
        · rw [if_neg hf] at he; cases he
  cases he : exec (fun s a => (step s a).bind fun s' => if s'.hold.length + 1 < 2 ^ 32 then some s' else none) (start c) acts with
  | none => simp [he] at h
  | some s =>
    rw [he] at h
    exact ⟨s, key acts (.init ⟨c, rfl⟩ (by simp [Few, start])) he, hP s h⟩

/-- A joiner that returned early releases its handle after the scheduler has released the fiber: the joiner destroys it. -/
example : ∃ s, Reach Init step Few s ∧ (s.dtors = 1 ∧ s.mem = .freed ∧ s.hold = [] ∧ ¬ OwnRef s) :=
  run_few 0 [.f, .f, .f, .join 0, .j 0, .f, .f, .f, .d, .d, .j 0, .x, .x, .x]
    (fun s => decide (s.dtors = 1 ∧ s.mem = .freed ∧ s.hold = [] ∧ ¬ (s.fpc ≠ .out ∨ s.tq = true ∨ s.popped = true)))
    (fun s h => by have := of_decide_eq_true h; exact this) (by decide +kernel)

/-- A detached fiber runs on and is destroyed by its scheduler. -/
example : ∃ s, Reach Init step Few s ∧ (s.dtors = 1 ∧ s.mem = .live ∧ s.hold = [] ∧ ¬ OwnRef s) :=
  run_few 0 [.drop 0, .f, .f, .f, .f, .f, .f, .d, .d, .x]
    (fun s => decide (s.dtors = 1 ∧ s.mem = .live ∧ s.hold = [] ∧ ¬ (s.fpc ≠ .out ∨ s.tq = true ∨ s.popped = true)))
    (fun s h => by have := of_decide_eq_true h; exact this) (by decide +kernel)

end Verif.Join
