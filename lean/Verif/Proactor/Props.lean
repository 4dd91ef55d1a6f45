import Verif.Proactor.Lemmas
/-!
# C29: a dispatched task wakes a sleeping proactor

Any number of producers, any interleaving, both kinds of proactor, tasks and remotely activated fibers.
-/
namespace Verif.Proactor
open Verif.Common

/-- C29: if the proactor sleeps while something is unprocessed, a producer is still inside its call. -/
theorem C29_someone_in_call {s : State} (h : Reach Init step NoWrap s) (ha : Asleep s) (hu : Unprocessed s) : ∃ t, InCall s t := by
  have hI := inv_reach h
  by_cases h0 : s.adds = 0
  · have : Early s := by
      rcases hu with hu | hu
      · exact hI.w.ta (by rw [ha.1]; rfl) (hI.w.dn (by simp [ha.1])) h0 hu
      · exact hI.w.re (by rw [ha.1]; rfl) h0 hu
    obtain ⟨t, ht⟩ := this
    refine ⟨t, ?_⟩
    intro he; rw [he] at ht; cases ht
  · rcases hI.w.wk ha.1 h0 with h1 | ⟨t, ht⟩
    · rw [ha.2] at h1; cases h1
    · refine ⟨t, ?_⟩
      intro he; rw [he] at ht; cases ht

/-- C29: when all calls have completed, the proactor does not sleep with anything unprocessed. -/
theorem C29_no_missed_wakeup_partial {s : State} (h : Reach Init step NoWrap s) (hq : ∀ t, ¬ InCall s t) (hu : Unprocessed s) : ¬ Asleep s := by
  intro ha
  obtain ⟨t, ht⟩ := C29_someone_in_call h ha hu
  exact hq t ht

/-- C29: and a producer inside its call wakes it, by its own steps alone. -/
theorem C29_wakes {s : State} (h : Reach Init step NoWrap s) (ha : Asleep s) (hu : Unprocessed s) :
    ∃ t acts s', (∀ a ∈ acts, a = .p t) ∧ acts.length ≤ 3 ∧ exec step s acts = some s' ∧ s'.cpc = .blocked ∧ s'.ev = true := by
  have hI := inv_reach h
  have kw : ∀ {s : State} {t : Nat} {r p}, s.cpc = .blocked → s.ppc t = .wake r p →
      ∃ s', exec step s [.p t] = some s' ∧ s'.cpc = .blocked ∧ s'.ev = true := by
    intro s t r p h1 h2
    refine ⟨{ s with ev := true, ppc := upd s.ppc t .idle }, ?_, h1, rfl⟩
    simp only [exec, step, stepP, h2]
  have ka : ∀ {s : State} {t : Nat} {r p}, s.cpc = .blocked → s.seq = waitVal → s.ppc t = .add r p →
      ∃ s', exec step s [.p t, .p t] = some s' ∧ s'.cpc = .blocked ∧ s'.ev = true := by
    intro s t r p h1 hw h2
    have e : step s (.p t) = some { s with seq := (s.seq + 2) % 2 ^ 32, adds := s.adds + 1, ppc := upd s.ppc t (.wake r p) } := by
      simp only [step, stepP, h2, if_pos hw]
    obtain ⟨s', h3, h4⟩ := kw (s := { s with seq := (s.seq + 2) % 2 ^ 32, adds := s.adds + 1, ppc := upd s.ppc t (.wake r p) }) (t := t)
      h1 (upd_same _ _ _)
    exact ⟨s', by rw [exec, e]; exact h3, h4⟩
  by_cases h0 : s.adds = 0
  · have hw : s.seq = waitVal := by
      have := hI.a.bl ha.1
      rw [h0] at this
      rw [this]; exact wait_eq.symm
    have : Early s := by
      rcases hu with hu | hu
      · exact hI.w.ta (by rw [ha.1]; rfl) (hI.w.dn (by simp [ha.1])) h0 hu
      · exact hI.w.re (by rw [ha.1]; rfl) h0 hu
    obtain ⟨t, ht⟩ := this
    cases hp : s.ppc t with
    | idle => rw [hp] at ht; cases ht
    | wake _ _ => rw [hp] at ht; cases ht
    | add r p =>
      obtain ⟨s', h1, h2⟩ := ka ha.1 hw hp
      exact ⟨t, _, s', by simp, by simp, h1, h2⟩
    | claimed r p =>
      have e : ∃ s1, step s (.p t) = some s1 ∧ s1.cpc = s.cpc ∧ s1.seq = s.seq ∧ s1.ppc = upd s.ppc t (.add r p) := by
        cases r
        · exact ⟨{ s with ppc := upd s.ppc t (.add false p), tq := s.tq.publish p }, by simp [step, stepP, hp], rfl, rfl, rfl⟩
        · exact ⟨{ s with ppc := upd s.ppc t (.add true p), rq := s.rq.publish p }, by simp [step, stepP, hp], rfl, rfl, rfl⟩
      obtain ⟨s1, e1, e2, e3, e4⟩ := e
      obtain ⟨s', h1, h2⟩ := ka (s := s1) (t := t) (r := r) (p := p) (e2.trans ha.1) (e3.trans hw) (by rw [e4]; exact upd_same _ _ _)
      exact ⟨t, [.p t, .p t, .p t], s', by simp, by simp, by rw [exec, e1]; exact h1, h2⟩
  · rcases hI.w.wk ha.1 h0 with h1 | ⟨t, ht⟩
    · rw [ha.2] at h1; cases h1
    · cases hp : s.ppc t with
      | wake r p =>
        obtain ⟨s', h1, h2⟩ := kw ha.1 hp
        exact ⟨t, _, s', by simp, by simp, h1, h2⟩
      | idle => rw [hp] at ht; cases ht
      | add r p => rw [hp] at ht; cases ht
      | claimed _ _ => rw [hp] at ht; cases ht

/-- All calls have completed and everything is published. -/
def Calm (s : State) : Prop := (∀ t, s.ppc t = .idle) ∧ (∀ p, p < s.tq.tail → s.tq.pub p = true) ∧ (∀ p, p < s.rq.tail → s.rq.pub p = true)

theorem calm_of {s : State} (h : BInv s) (hq : ∀ t, ¬ InCall s t) : Calm s := by
  have hi : ∀ t, s.ppc t = .idle := fun t => Classical.byContradiction (hq t)
  refine ⟨hi, fun p hp => ?_, fun p hp => ?_⟩
  · rcases h.tp p hp with h | ⟨t, ht⟩
    · exact h
    · rw [hi t] at ht; cases ht
  · rcases h.rp p hp with h | ⟨t, ht⟩
    · exact h
    · rw [hi t] at ht; cases ht

/-- Moves of the main loop alone, without help from timers, signals or other events. -/
def OnlyC (acts : List Act) : Prop := ∀ a ∈ acts, a = .c .go ∨ a = .c .alt

def Goes (s : State) (R : State → Prop) : Prop := ∃ acts s', OnlyC acts ∧ exec step s acts = some s' ∧ R s'

theorem goes_refl {s : State} {R : State → Prop} (h : R s) : Goes s R := ⟨[], s, by simp [OnlyC], rfl, h⟩

theorem goes_step {s s1 : State} {R : State → Prop} (c : Ch) (hs : stepC s c = some s1) (h : Goes s1 R)
    (hc : c = .go ∨ c = .alt := by simp) : Goes s R := by
  obtain ⟨acts, s', h1, h2, h3⟩ := h
  refine ⟨.c c :: acts, s', ?_, ?_, h3⟩
  · intro a ha; rcases List.mem_cons.1 ha with rfl | ha
    · rcases hc with rfl | rfl <;> simp
    · exact h1 a ha
  · rw [exec]; simp only [step, hs]; exact h2

theorem goes_trans {s : State} {R R' : State → Prop} (h : Goes s R) (h' : ∀ s', R s' → Goes s' R') : Goes s R' := by
  obtain ⟨acts, s', h1, h2, h3⟩ := h
  obtain ⟨acts', s'', h4, h5, h6⟩ := h' s' h3
  refine ⟨acts ++ acts', s'', ?_, ?_, h6⟩
  · intro a ha; rcases List.mem_append.1 ha with ha | ha
    · exact h1 a ha
    · exact h4 a ha
  · rw [exec_append, h2]; exact h5

theorem pass_tasks : ∀ (n : Nat) {s : State}, s.tq.tail - s.tq.head = n → Calm s → s.cpc = .tasks →
    Goes s (fun s' => Calm s' ∧ s'.cpc = .remote ∧ s'.tq.tail ≤ s'.tq.head) := by
  intro n
  induction n with
  | zero =>
    intro s hn hc hp
    have ha : s.tq.avail = false := by
      have : ¬ s.tq.head < s.tq.tail := by omega
      simp [Inbox.avail, this]
    refine goes_step .go (s1 := { s with cpc := .remote }) (by unfold stepC; rw [hp]; simp [ha]) (goes_refl ⟨hc, rfl, ?_⟩)
    show s.tq.tail ≤ s.tq.head
    omega
  | succ n ih =>
    intro s hn hc hp
    have ha : s.tq.avail = true := by
      have : s.tq.head < s.tq.tail := by omega
      simp [Inbox.avail, this, hc.2.1 _ this]
    refine goes_step .go (s1 := { s with tq := s.tq.take }) (by unfold stepC; rw [hp]; simp [ha]) (ih ?_ hc hp)
    show s.tq.tail - (s.tq.head + 1) = n
    omega

theorem pass_remote : ∀ (n : Nat) {s : State}, s.rq.tail - s.rq.head = n → Calm s → s.cpc = .remote →
    Goes s (fun s' => Calm s' ∧ s'.cpc = .rest ∧ s'.rq.tail ≤ s'.rq.head ∧ s'.tq = s.tq) := by
  intro n
  induction n with
  | zero =>
    intro s hn hc hp
    have hl : ¬ s.rq.head < s.rq.tail := by omega
    have ha : s.rq.avail = false := by simp [Inbox.avail, hl]
    refine goes_step .go (s1 := { s with cpc := .rest }) (by unfold stepC; rw [hp]; simp [ha, hl]) (goes_refl ⟨hc, rfl, ?_, rfl⟩)
    show s.rq.tail ≤ s.rq.head
    omega
  | succ n ih =>
    intro s hn hc hp
    have ha : s.rq.avail = true := by
      have : s.rq.head < s.rq.tail := by omega
      simp [Inbox.avail, this, hc.2.2 _ this]
    refine goes_step .go (s1 := { s with rq := s.rq.take }) (by unfold stepC; rw [hp]; simp [ha]) (ih (s := { s with rq := s.rq.take }) ?_ hc hp)
    show s.rq.tail - (s.rq.head + 1) = n
    omega

theorem pass_load {s : State} (hc : Calm s) (hp : s.cpc = .load) : Goes s (fun s' => ¬ Unprocessed s') := by
  refine goes_step .go (s1 := { s with loc := s.seq, adds := 0, done := true, cpc := .tasks }) (by unfold stepC; rw [hp]) ?_
  refine goes_trans (pass_tasks _ rfl hc rfl) ?_
  rintro s1 ⟨h1, h2, h3⟩
  refine goes_trans (pass_remote _ rfl h1 h2) ?_
  rintro s2 ⟨-, -, h4, h5⟩
  refine goes_refl ?_
  rw [← h5] at h3
  rintro (h | h) <;> omega

theorem pass_store {s : State} (hc : Calm s) (hp : s.cpc = .store) : Goes s (fun s' => ¬ Unprocessed s') :=
  goes_step .go (s1 := { s with seq := 0, adds := 0, cpc := .load }) (by unfold stepC; rw [hp]) (pass_load hc rfl)

theorem pass_rest {s : State} (hc : Calm s) (hp : s.cpc = .rest) : Goes s (fun s' => ¬ Unprocessed s') := by
  cases hu : s.uring
  · exact goes_step .alt (s1 := { s with cpc := .store }) (by unfold stepC; rw [hp]; simp [hu]) (pass_store hc rfl)
  · exact goes_step .alt (s1 := { s with cpc := .load }) (by unfold stepC; rw [hp]; simp [hu]) (pass_load hc rfl)

theorem pass_cas {s : State} (hc : Calm s) (hp : s.cpc = .cas) : Goes s (fun s' => ¬ Unprocessed s') := by
  cases hu : s.uring
  · exact goes_step .alt (s1 := { s with cpc := .store }) (by unfold stepC; rw [hp]; simp [hu]) (pass_store hc rfl)
  · exact goes_step .alt (s1 := { s with cpc := .load }) (by unfold stepC; rw [hp]; simp [hu]) (pass_load hc rfl)

theorem pass_empty2 {s : State} (hc : Calm s) (hp : s.cpc = .empty2) : Goes s (fun s' => ¬ Unprocessed s') := by
  by_cases ha : s.rq.head < s.rq.tail
  · exact goes_step .go (s1 := { s with cpc := .load }) (by unfold stepC; rw [hp]; simp [ha]) (pass_load hc rfl)
  · exact goes_step .go (s1 := { s with cpc := .cas }) (by unfold stepC; rw [hp]; simp [ha]) (pass_cas hc rfl)

/-- C29: when all calls have completed, the main loop can always process everything, by itself: its wait returns because the
event is there. -/
theorem C29_all_processed {s : State} (h : Reach Init step NoWrap s) (hq : ∀ t, ¬ InCall s t) :
    ∃ acts s', OnlyC acts ∧ exec step s acts = some s' ∧ ¬ Unprocessed s' := by
  have hc := calm_of (inv_reach h).b hq
  by_cases hu : Unprocessed s
  case neg => exact goes_refl (R := fun s => ¬ Unprocessed s) hu
  have hna := C29_no_missed_wakeup_partial h hq hu
  show Goes s (fun s => ¬ Unprocessed s)
  cases hp : s.cpc with
  | load => exact pass_load hc hp
  | store => exact pass_store hc hp
  | rest => exact pass_rest hc hp
  | cas => exact pass_cas hc hp
  | empty2 => exact pass_empty2 hc hp
  | empty1 =>
    by_cases ha : s.tq.avail = true
    · exact goes_step .go (s1 := { s with cpc := .load }) (by unfold stepC; rw [hp]; simp [ha]) (pass_load hc rfl)
    · exact goes_step .go (s1 := { s with cpc := .empty2 }) (by unfold stepC; rw [hp]; simp [ha]) (pass_empty2 hc rfl)
  | remote => exact goes_trans (pass_remote _ rfl hc hp) (fun s1 h1 => pass_rest h1.1 h1.2.1)
  | tasks =>
    exact goes_trans (pass_tasks _ rfl hc hp) (fun s1 h1 => goes_trans (pass_remote _ rfl h1.1 h1.2.1) (fun s2 h2 => pass_rest h2.1 h2.2.1))
  | blocked =>
    have he : s.ev = true := by
      cases he : s.ev with
      | true => rfl
      | false => exact absurd ⟨hp, he⟩ hna
    exact goes_step .go (s1 := { s with cpc := .store }) (by unfold stepC; rw [hp]; simp [he]) (pass_store hc rfl)

/-! ### The stronger statement is false -/

/-- Moves of a concrete run, checked to stay within the bound. -/
theorem run_ex {P : State → Prop} (u : Bool) (acts : List Act) (chk : State → Bool) (hP : ∀ s, chk s = true → P s)
    (h : (match exec (fun s a => (step s a).bind fun s' => if s'.adds < 100 then some s' else none) (start u) acts with
      | some s => chk s | none => false) = true) :
    ∃ s, Reach Init step NoWrap s ∧ P s := by
  have key : ∀ (acts : List Act) {s s' : State}, Reach Init step NoWrap s →
      exec (fun s a => (step s a).bind fun s' => if s'.adds < 100 then some s' else none) s acts = some s' →
      Reach Init step NoWrap s' := by
    intro acts
    induction acts with
    | nil => intro s s' hr he; simp only [exec, Option.some.injEq] at he; exact he ▸ hr
    | cons a acts ih =>
      intro s s' hr he
      simp only [exec] at he
      cases hs : step s a with
      | none => simp [hs] at he
      | some s1 =>
        simp only [hs, Option.bind_some] at he
        by_cases hf : s1.adds < 100
        · rw [if_pos hf] at he
          exact ih (.step hr hs (by unfold NoWrap; omega)) he
        · rw [if_neg hf] at he; cases he
  cases he : exec (fun s a => (step s a).bind fun s' => if s'.adds < 100 then some s' else none) (start u) acts with
  | none => simp [he] at h
  | some s =>
    rw [he] at h
    refine ⟨s, key acts (.init ⟨u, rfl⟩ ?_) he, hP s h⟩
    show (0 : Nat) < 2 ^ 31
    omega

/-- The call of producer 1 that put the item at position 1 of the task queue has completed, and the item is not taken. -/
def StuckAt (s : State) (t p : Nat) : Prop := s.ppc t = .idle ∧ s.tq.pub p = true ∧ s.tq.head ≤ p ∧ p < s.tq.tail

/-- C29 read strictly fails: a call can be complete and its task unprocessed while the proactor sleeps, for as long as *another*
producer, which was to wake the proactor, is delayed before its `WakeRing`. -/
theorem C29_other_producer_delays (u : Bool) : ∃ s, Reach Init step NoWrap s ∧ (Asleep s ∧ StuckAt s 1 1) := by
  cases u
  · exact run_ex false ([.c .go, .c .go, .c .go, .c .go, .c .go] ++ [.call 0 false, .p 0, .p 0, .call 1 false, .p 1, .p 1])
      (fun s => decide (s.cpc = .blocked ∧ s.ev = false) && decide (s.ppc 1 = .idle ∧ s.tq.pub 1 = true ∧ s.tq.head ≤ 1 ∧ 1 < s.tq.tail))
      (fun s h => by
        simp only [Bool.and_eq_true] at h
        exact ⟨by have := of_decide_eq_true h.1; exact this, by have := of_decide_eq_true h.2; exact this⟩) (by decide +kernel)
  · exact run_ex true ([.c .go, .c .go, .c .go, .c .go, .c .go, .c .go, .c .go] ++
        [.call 0 false, .p 0, .p 0, .call 1 false, .p 1, .p 1])
      (fun s => decide (s.cpc = .blocked ∧ s.ev = false) && decide (s.ppc 1 = .idle ∧ s.tq.pub 1 = true ∧ s.tq.head ≤ 1 ∧ 1 < s.tq.tail))
      (fun s h => by
        simp only [Bool.and_eq_true] at h
        exact ⟨by have := of_decide_eq_true h.1; exact this, by have := of_decide_eq_true h.2; exact this⟩) (by decide +kernel)

/-- The same when the other producer is delayed earlier: it has claimed the position in front and not published it, so that the
loop takes the queue for empty. Here the sequence number was increased by the completed call *before* the loop read it. -/
theorem C29_hidden_behind_claim (u : Bool) : ∃ s, Reach Init step NoWrap s ∧ (Asleep s ∧ StuckAt s 1 1 ∧ s.ppc 0 = .claimed false 0) := by
  cases u
  · exact run_ex false ([.call 0 false, .call 1 false, .p 1, .p 1] ++ [.c .go, .c .go, .c .go, .c .go, .c .go])
      (fun s => decide (s.cpc = .blocked ∧ s.ev = false) &&
        decide (s.ppc 1 = .idle ∧ s.tq.pub 1 = true ∧ s.tq.head ≤ 1 ∧ 1 < s.tq.tail) && decide (s.ppc 0 = .claimed false 0))
      (fun s h => by
        simp only [Bool.and_eq_true] at h
        exact ⟨by have := of_decide_eq_true h.1.1; exact this, by have := of_decide_eq_true h.1.2; exact this,
          by have := of_decide_eq_true h.2; exact this⟩) (by decide +kernel)
  · exact run_ex true ([.call 0 false, .call 1 false, .p 1, .p 1] ++ [.c .go, .c .go, .c .go, .c .go, .c .go, .c .go, .c .go])
      (fun s => decide (s.cpc = .blocked ∧ s.ev = false) &&
        decide (s.ppc 1 = .idle ∧ s.tq.pub 1 = true ∧ s.tq.head ≤ 1 ∧ 1 < s.tq.tail) && decide (s.ppc 0 = .claimed false 0))
      (fun s h => by
        simp only [Bool.and_eq_true] at h
        exact ⟨by have := of_decide_eq_true h.1.1; exact this, by have := of_decide_eq_true h.1.2; exact this,
          by have := of_decide_eq_true h.2; exact this⟩) (by decide +kernel)

/-- Non-vacuity of `C29_no_missed_wakeup_partial`: all calls complete, two tasks and a remote fiber unprocessed, the loop waiting with its
event there. -/
example : ∃ s, Reach Init step NoWrap s ∧ (s.cpc = .blocked ∧ s.ev = true ∧ Unprocessed s ∧ s.ppc 0 = .idle ∧ s.ppc 1 = .idle) :=
  run_ex true ([.c .go, .c .go, .c .go, .c .go, .c .go, .c .go, .c .go] ++
      [.call 0 false, .p 0, .p 0, .call 1 true, .p 1, .p 1, .p 0])
    (fun s => decide (s.cpc = .blocked ∧ s.ev = true ∧ (s.tq.head < s.tq.tail ∨ s.rq.head < s.rq.tail) ∧ s.ppc 0 = .idle ∧ s.ppc 1 = .idle))
    (fun s h => by have := of_decide_eq_true h; exact this) (by decide +kernel)

end Verif.Proactor
