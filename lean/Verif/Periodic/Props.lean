import Verif.Periodic.Progress
import Verif.Periodic.EpollInv
/-!
C68: a periodic task is called once per expiry of its timer, never after `CancelPeriodic` was called for it, and its record
lives exactly as long as something refers to it.
-/
namespace Verif.Periodic
open Verif.Common

/-- No completion finds an empty callback, no deleted record is used, and a task that is registered is never told that its
timer was cancelled. -/
theorem C68_safe {s : S} (h : Reachable Init step s) : s.bad = none := (lg_reach h).1.ok

/-- Once `CancelPeriodic` was called for a task, the task is not called any more. -/
theorem C68_no_call_after_cancel {s : S} (h : Reachable Init step s) (i : Nat) : ¬ Before s.log (.cancelStart i) (.called i) :=
  pairwise_not_before (lg_reach h).2.ord fun hm => ((hm i).1 rfl).1 rfl

/-- Once `CancelPeriodic` returned, the timer of the task does not expire any more: it is neither queued nor armed. -/
theorem C68_no_expiry_after_cancel {s : S} (h : Reachable Init step s) (i : Nat) : ¬ Before s.log (.cancelDone i) (.expired i) :=
  pairwise_not_before (lg_reach h).2.ord fun hm => ((hm i).2.2 rfl).2 rfl

/-- A task that is registered is called once for each time its timer expired, except that the last expiry may wait in the
completion queue. -/
theorem C68_one_call_per_expiry {s : S} (h : Reachable Init step s) (i : Nat) (hr : Registered s.log i) :
    s.log.count (.called i) ≤ s.log.count (.expired i) ∧ s.log.count (.expired i) ≤ s.log.count (.called i) + 1 := by
  obtain ⟨v, g⟩ := lg_reach h
  obtain ⟨x, hx, hm⟩ := (registered_iff g i).1 hr
  have h1 := g.eq i x hx hm
  have h2 := timers_one v hx ((v.o.c i x hx).1 hm).2
  have h3 := ready_le (s := s) i
  omega

/-- No task, registered or not, is called more often than its timer expired. -/
theorem C68_calls_le_expiries {s : S} (h : Reachable Init step s) (i : Nat) : s.log.count (.called i) ≤ s.log.count (.expired i) := by
  have := (lg_reach h).2.le i
  omega

/-- A task that is registered has exactly one timer. -/
theorem C68_one_timer {s : S} (h : Reachable Init step s) (i : Nat) (hr : Registered s.log i) : timers s i = 1 := by
  obtain ⟨v, g⟩ := lg_reach h
  obtain ⟨x, hx, hm⟩ := (registered_iff g i).1 hr
  exact timers_one v hx ((v.o.c i x hx).1 hm).2

/-- A removal never hits the timer of a task that is registered. -/
theorem C68_removal_hits_own {s : S} (h : Reachable Init step s) {t : KT} (ht : t ∈ s.kt) (hd : t.dying = true) :
    ¬ Registered s.log t.i := by
  obtain ⟨v, g⟩ := lg_reach h
  rw [registered_iff g]
  rintro ⟨x, hx, hm⟩
  have := v.q.b1 t ht hd x hx
  rw [hm] at this; cases this

/-- Once the kernel has taken the removal that `CancelPeriodic` submitted, the timer of the task is not queued, and it is not
armed except that the kernel may still have to report it. -/
theorem C68_removal_effective {s : S} (h : Reachable Init step s) {f : Nat} {c : Cancel} (hc : s.cans[f]? = some c) (ht : Taken s f) :
    (∀ e ∈ s.sq, e.cb ≠ .timer c.i) ∧ ∀ t ∈ s.kt, t.i = c.i → t.dying = true :=
  (lg_reach h).1.q.d f c hc ht

/-- The record of a task is deleted at most once, only after `CancelPeriodic` was called for the task; after that the task is
not called and its timer does not expire. -/
theorem C68_record_freed {s : S} (h : Reachable Init step s) (i : Nat) :
    s.log.count (.freed i) ≤ 1 ∧ (.freed i ∈ s.log → Before s.log (.cancelStart i) (.freed i)) ∧
    ¬ Before s.log (.freed i) (.called i) ∧ ¬ Before s.log (.freed i) (.expired i) := by
  obtain ⟨v, g⟩ := lg_reach h
  have nb : ∀ b, (b = .called i ∨ b = .freed i ∨ b = .expired i ∨ b = .cancelStart i) → ¬ Before s.log (.freed i) b := by
    intro b hb
    refine pairwise_not_before g.ord fun hm => ?_
    have := (hm i).2.1 rfl
    rcases hb with rfl | rfl | rfl | rfl
    · exact this.1 rfl
    · exact this.2.1 rfl
    · exact this.2.2.1 rfl
    · exact this.2.2.2 rfl
  refine ⟨?_, ?_, nb _ (by simp), nb _ (by simp)⟩
  · by_cases hm : Ev.freed i ∈ s.log
    · obtain ⟨l1, l2, hl⟩ := List.append_of_mem hm
      have h1 : Ev.freed i ∉ l1 := by
        intro hm1
        obtain ⟨a, b, rfl⟩ := List.append_of_mem hm1
        exact nb (.freed i) (by simp) ⟨a, b, l2, by rw [hl]; simp⟩
      have h2 : Ev.freed i ∉ l2 := by
        intro hm1
        obtain ⟨a, b, rfl⟩ := List.append_of_mem hm1
        exact nb (.freed i) (by simp) ⟨l1, a, b, hl⟩
      rw [hl, List.count_append, List.count_cons_self, List.count_eq_zero.2 h1, List.count_eq_zero.2 h2]
      omega
    · rw [List.count_eq_zero.2 hm]; omega
  · intro hm
    obtain ⟨x, hx, hf⟩ := (g.freed i).1 hm
    have hin : x.inMap = false := by
      cases hin : x.inMap with
      | false => rfl
      | true => have := ((v.o.c i x hx).1 hin).2; rw [hf] at this; cases this
    have hs := (g.start i).2 ⟨x, hx, hin⟩
    obtain ⟨l1, l2, hl⟩ := List.append_of_mem hs
    rw [hl] at hm
    rcases List.mem_append.1 hm with h1 | h1
    · obtain ⟨a, b, rfl⟩ := List.append_of_mem h1
      exact absurd ⟨a, b, l2, by rw [hl]; simp⟩ (nb (.cancelStart i) (by simp))
    · rcases List.mem_cons.1 h1 with h1 | h1
      · cases h1
      · obtain ⟨a, b, rfl⟩ := List.append_of_mem h1
        exact ⟨l1, a, b, hl⟩

/-- The record is deleted when nothing refers to it: a record that was not deleted has exactly one timer, whose completion
will find it, and a deleted one has none. -/
theorem C68_record_lives {s : S} (h : Reachable Init step s) (i : Nat) (ha : .added i ∈ s.log) :
    timers s i = if .freed i ∈ s.log then 0 else 1 := by
  obtain ⟨v, g⟩ := lg_reach h
  have hlt := (g.added i).1 ha
  have hx := List.getElem?_eq_getElem hlt
  split
  · rename_i hf
    obtain ⟨x, hx, hf⟩ := (g.freed i).1 hf
    exact timers_zero v hx hf
  · rename_i hf
    refine timers_one v hx ?_
    cases h1 : s.items[i].freed with
    | false => rfl
    | true => exact absurd ((g.freed i).2 ⟨_, hx, h1⟩) hf

/-- From every state the loop can finish its round by itself. Then every task that is registered was called as often as its
timer expired, and every `CancelPeriodic` whose removal the kernel has taken has been woken. -/
theorem C68_round {s : S} (h : Reachable Init step s) :
    ∃ acts s', (∀ a ∈ acts, a.loop = true) ∧ exec step s acts = some s' ∧ s'.mode = .fibers ∧
      (∀ i, Registered s.log i → s'.log.count (.called i) = s.log.count (.expired i)) ∧
      (∀ (f : Nat) (c : Cancel), s'.cans[f]? = some c → Taken s' f → c.done = true) := by
  obtain ⟨s', ⟨acts, ha, he, hx, _⟩, hm, hq⟩ := run_round (lg_reach h).1
  obtain ⟨v, g⟩ := lg_reach (Reachable.exec h acts he)
  refine ⟨acts, s', ha, he, hm, ?_, ?_⟩
  · intro i hr
    have hr' : Registered s'.log i := ⟨(hx.mem rfl).2 hr.1, fun h => hr.2 ((hx.mem rfl).1 h)⟩
    obtain ⟨x, hx', hm'⟩ := (registered_iff g i).1 hr'
    have := g.eq i x hx' hm'
    rw [hq] at this
    rw [← hx.count (e := .expired i) rfl]
    exact this
  · intro f c hc ht
    cases hd : c.done with
    | true => rfl
    | false =>
      obtain ⟨u, hu⟩ := v.o.f f c hc hd
      have hf := (v.t.iff _ _).1 hu
      unfold flight at hf
      simp only [hq, List.map_nil, List.append_nil, List.mem_append, List.mem_map, Prod.mk.injEq, reduceCtorEq, and_false,
        exists_false, or_false] at hf
      obtain ⟨e, he, _, h2⟩ := hf
      exact absurd h2 (ht e he)

/-! ## The hypotheses are met -/

theorem reach_of {acts : List Act} {P : S → Bool} (h : (exec step S.init acts).map P = some true) :
    ∃ s, Reachable Init step s ∧ P s = true := by
  cases he : exec step S.init acts with
  | none => rw [he] at h; cases h
  | some s => rw [he] at h; exact ⟨s, Reachable.exec (.init rfl trivial) acts he, by simpa using h⟩

/-- Two tasks; the first is called twice, cancelled while its timer is armed, and its record is deleted; the second is still
registered and has expired once without having been called. -/
example : ∃ s, Reachable Init step s ∧ Registered s.log 1 ∧ s.log.count (.called 0) = 2 ∧ .freed 0 ∈ s.log ∧
    Ev.cancelDone 0 ∈ s.log ∧ s.log.count (.expired 1) = s.log.count (.called 1) + 1 := by
  obtain ⟨s, hr, hp⟩ := reach_of
    (acts := [.add 0, .add 1, .submit, .submit, .fire 0, .begin, .proc, .drained, .resch 0, .finish, .submit, .fire 1, .begin, .proc,
      .drained, .resch 2, .finish, .submit, .cancel 0 0, .submit, .post 1, .fire 0, .begin, .proc, .proc])
    (P := fun s => decide (s.log = [.added 0, .added 1, .expired 0, .called 0, .expired 0, .called 0, .cancelStart 0, .expired 1,
      .cancelDone 0, .freed 0])) (by decide)
  have hp := of_decide_eq_true hp
  refine ⟨s, hr, ?_⟩
  rw [hp]
  unfold Registered
  decide

/-- A removal that the kernel has taken, and a timer it has hit. -/
example : ∃ (s : S) (t : KT) (c : Cancel), Reachable Init step s ∧ t ∈ s.kt ∧ t.dying = true ∧ s.cans[0]? = some c ∧ c.done = false ∧ Taken s 0 := by
  obtain ⟨s, hr, hp⟩ := reach_of (acts := [.add 0, .submit, .cancel 0 1, .submit])
    (P := fun s => decide (s.kt = [KT.mk 0 0 true] ∧ s.cans = [Cancel.mk 0 false] ∧ s.sq = [])) (by decide)
  have hp := of_decide_eq_true hp
  refine ⟨s, ⟨0, 0, true⟩, ⟨0, false⟩, hr, by rw [hp.1]; simp, rfl, by rw [hp.2.1]; rfl, rfl, ?_⟩
  intro e he
  rw [hp.2.2] at he
  cases he

/-! ## The epoll proactor -/

namespace Epoll

/-- On epoll no deleted record is used and the CHECK on the reference count holds. -/
theorem C68_epoll_safe {s : E} (h : Reachable EInit estep s) : s.bad = false := (einv_reach h).ok

/-- Once `CancelPeriodic` was called for a task, the task is not called any more and its timer does not expire; the record is
deleted by that call, once, and a registered task has its record. -/
theorem C68_epoll_cancel {s : E} (h : Reachable EInit estep s) (i : Nat) :
    ¬ Before s.log (.cancelStart i) (.called i) ∧ ¬ Before s.log (.cancelDone i) (.expired i) ∧ ¬ Before s.log (.freed i) (.called i) ∧
    ¬ Before s.log (.freed i) (.freed i) ∧ (.freed i ∈ s.log ↔ .cancelStart i ∈ s.log) :=
  ⟨pairwise_not_before (einv_reach h).ord fun hm => ((hm i).1 rfl).1 rfl,
   pairwise_not_before (einv_reach h).ord fun hm => ((hm i).2.2 rfl).2 rfl,
   pairwise_not_before (einv_reach h).ord fun hm => ((hm i).2.1 rfl).1 rfl,
   pairwise_not_before (einv_reach h).ord fun hm => ((hm i).2.1 rfl).2.1 rfl,
   by rw [(einv_reach h).freed, (einv_reach h).start]⟩

/-- A task that is registered is armed, at one position, and an expiry is not lost: as long as the task was not called after
it, the file of its timer is ready, so that `epoll_wait` reports it. -/
theorem C68_epoll_not_lost {s : E} (h : Reachable EInit estep s) (i : Nat) (hr : Registered s.log i) {l1 l2 : List Ev}
    (hl : s.log = l1 ++ .expired i :: l2) (hc : .called i ∉ l2) : ∃ j, s.slots j = some (.timer i) ∧ s.canReport j = true := by
  have v := einv_reach h
  have hlt := (v.added i).1 hr.1
  have hx := List.getElem?_eq_getElem hlt
  have hm : s.items[i].inMap = true := by
    cases hm : s.items[i].inMap with
    | true => rfl
    | false => exact absurd ((v.start i).2 ⟨_, hx, hm⟩) hr.2
  have hs := (v.a i _ hx hm).2.2
  refine ⟨_, hs, canReport_iff.2 (Or.inr ⟨i, _, hs, hx, ?_⟩)⟩
  cases hp : s.items[i].pending with
  | true => rfl
  | false => exact absurd (v.ans i _ hx hm hp l1 l2 hl) hc

/-- If callbacks disarm nothing while events are dispatched, a task is not called more often than its timer expired.
Missing: callbacks that disarm, see `C68_epoll_spurious_call`. -/
theorem C68_epoll_calls_partial {s : E} (h : Reachable EInit estepQ s) (i : Nat) (hr : Registered s.log i) :
    s.log.count (.called i) ≤ s.log.count (.expired i) := by
  have q := eq_reach h
  have hx := List.getElem?_eq_getElem ((q.v.added i).1 hr.1)
  have := q.cnt i _ hx
  omega

theorem ereach_of {acts : List EAct} {P : E → Bool} (h : (exec estep E.init acts).map P = some true) :
    ∃ s, Reachable EInit estep s ∧ P s = true := by
  cases he : exec estep E.init acts with
  | none => rw [he] at h; cases h
  | some s => rw [he] at h; exact ⟨s, Reachable.exec (.init rfl trivial) acts he, by simpa using h⟩

/-- On epoll a task can be called although its timer did not expire: a callback disarms a file whose event is in the same
batch, and a task added after that gets its position. -/
theorem C68_epoll_spurious_call : ∃ s, Reachable EInit estep s ∧ Registered s.log 0 ∧ .called 0 ∈ s.log ∧ Ev.expired 0 ∉ s.log := by
  obtain ⟨s, hr, hp⟩ := ereach_of (acts := [.arm 0, .arm 1, .wait [0, 1], .dispatch, .disarm 1, .add 1, .dispatch])
    (P := fun s => decide (s.log = [.added 0, .called 0])) (by decide)
  have hp := of_decide_eq_true hp
  refine ⟨s, hr, ?_⟩
  rw [hp]
  unfold Registered
  decide

/-- A task is called, expires again and waits; another was cancelled. -/
example : ∃ s, Reachable EInit estepQ s ∧ Registered s.log 0 ∧ s.log.count (.called 0) = 1 ∧ s.log.count (.expired 0) = 2 ∧ .freed 1 ∈ s.log ∧
    ∃ l1 l2, s.log = l1 ++ .expired 0 :: l2 ∧ Ev.called 0 ∉ l2 := by
  have he : (exec estepQ E.init [.add 0, .add 1, .arm 2, .expire 0, .expire 1, .wait [1, 0, 2], .dispatch, .dispatch, .dispatch, .finish,
      .cancel 1, .expire 0]).map (fun s => decide (s.log = [.added 0, .added 1, .expired 0, .expired 1, .called 1, .called 0,
        .cancelStart 1, .freed 1, .cancelDone 1, .expired 0])) = some true := by decide
  cases h1 : exec estepQ E.init [.add 0, .add 1, .arm 2, .expire 0, .expire 1, .wait [1, 0, 2], .dispatch, .dispatch, .dispatch, .finish,
      .cancel 1, .expire 0] with
  | none => rw [h1] at he; cases he
  | some s =>
    rw [h1] at he
    have hp : s.log = _ := of_decide_eq_true (Option.some.inj he)
    refine ⟨s, Reachable.exec (.init rfl trivial) _ h1, ?_, ?_, ?_, ?_, [.added 0, .added 1, .expired 0, .expired 1, .called 1, .called 0,
        .cancelStart 1, .freed 1, .cancelDone 1], [], ?_, by simp⟩
    · rw [hp]; unfold Registered; decide
    · rw [hp]; decide
    · rw [hp]; decide
    · rw [hp]; decide
    · rw [hp]; rfl

end Epoll

end Verif.Periodic
