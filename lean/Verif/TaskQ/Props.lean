import Verif.TaskQ.Inv
/-!
# C119: dispatching to a full queue
-/
namespace Verif.TaskQ
open Common

/-- Tasks start in the order in which they were accepted, and a queue never has more than its capacity. -/
theorem C119_fifo {cap : Nat} (hc : 0 < cap) {s : S} (h : Reaches cap s) (p : Nat) :
    (s.ps p).ran ++ (s.ps p).q = (s.ps p).acc ∧ (s.ps p).q.length ≤ cap := ⟨(inv hc h).fifo p, (inv hc h).len p⟩

/-- When a call has returned, its task is in the queue or was started, exactly once and on that proactor only. While the call is going on it is
nowhere. -/
theorem C119_once {cap : Nat} (hc : 0 < cap) {s : S} (h : Reaches cap s) (i p t : Nat) :
    (Returned s i p t → ((s.ps p).ran ++ (s.ps p).q).count t = 1 ∧ ∀ p', p' ≠ p → t ∉ (s.ps p').ran ++ (s.ps p').q) ∧
    (Ongoing s i p t → ∀ p', t ∉ (s.ps p').ran ++ (s.ps p').q) := by
  have I := inv hc h
  constructor
  · rintro ⟨w, hw⟩
    have hs := I.dn i p t w hw
    constructor
    · rw [I.fifo p]
      have h1 := List.nodup_iff_count.1 (I.acnd p) t
      have h2 := List.count_pos_iff.2 ((I.ac p t).2 hs)
      omega
    · intro p' hp hm
      rw [I.fifo p', I.ac p' t, hs] at hm
      cases hm; exact hp rfl
  · intro ho p' hm
    have hs : s.stat t = .caller i := by
      apply I.held i t
      rcases ho with h | h | ⟨e, h⟩ | ⟨e, h⟩ | h <;> (rw [h]; rfl)
    rw [I.fifo p', I.ac p' t, hs] at hm
    cases hm

/-- Whenever a caller sleeps, the proactor has a task to run, or is running some and will notify. -/
theorem C119_no_lost_wakeup {cap : Nat} (hc : 0 < cap) {s : S} (h : Reaches cap s) (i p t : Nat) (hs : s.th i = .asleep p t) :
    (s.ps p).q ≠ [] ∨ (s.ps p).running = true ∨ (s.ps p).loc ≠ [] := (inv hc h).sleep i p t hs

/-- The end of a run of tasks wakes every caller. -/
theorem C119_wakes_all {cap : Nat} {s s' : S} {p : Nat} (h : step cap s (.endBatch p) = some s') (i t : Nat) : s'.th i ≠ .asleep p t := by
  simp only [step] at h
  split at h
  · cases h; exact notify_awake s p i t
  · cases h

theorem th_upd (s : S) (i : Nat) (v : Phase) : (setTh s i v).th i = v := by simp [setTh, upd]

/-- After a notification a caller that slept gets in with its own next two steps, if there is room. -/
theorem finish {cap : Nat} {s : S} {i p t : Nat} (h : s.th i = .prep p t) (hl : (s.ps p).q.length < cap) :
    ∃ s', exec (step cap) s [.prepare i, .retry i] = some s' ∧ s'.th i = .done p t true := by
  have h1 : step cap s (.prepare i) = some (setTh s i (.retry p t (s.ps p).epoch)) := by simp [step, h]
  have h2 : step cap (setTh s i (.retry p t (s.ps p).epoch)) (.retry i) =
      some (setTh (enqueue (setTh s i (.retry p t (s.ps p).epoch)) p t) i (.done p t true)) := by
    simp only [step, th_upd]
    rw [if_pos (by exact hl)]
  exact ⟨setTh (enqueue (setTh s i (.retry p t (s.ps p).epoch)) p t) i (.done p t true), by simp only [exec, h1, h2], th_upd _ _ _⟩

theorem woken_here (p t : Nat) : woken p (.asleep p t) = .prep p t := by simp [woken]

/-- A sleeping caller needs nobody but the loop of the proactor: it gets in with at most two steps of the loop and two of its own, unless the
thread of the proactor is inside of `DispatchLocalBrief` or of `Migrate`. -/
theorem C119_progress_partial {cap : Nat} (hc : 0 < cap) {s : S} (h : Reaches cap s) (i p t : Nat) (hs : s.th i = .asleep p t)
    (hf : (s.ps p).loc = [] ∧ (s.ps p).spin = none) :
    ∃ l s', (l = [.deq p, .endBatch p, .prepare i, .retry i] ∨ l = [.endBatch p, .prepare i, .retry i]) ∧
      exec (step cap) s l = some s' ∧ s'.th i = .done p t true := by
  have I := inv hc h
  have hfree : free (s.ps p) = true := by simp [free, hf.1, hf.2]
  have hlen := I.len p
  cases hq : (s.ps p).q with
  | nil =>
    have hr : (s.ps p).running = true := by
      rcases I.sleep i p t hs with h | h | h
      · exact absurd hq h
      · exact h
      · exact absurd hf.1 h
    have h1 : step cap s (.endBatch p) = some { notifyAll s p with ps := upd (notifyAll s p).ps p { (notifyAll s p).ps p with running := false } } := by
      simp [step, hfree, hr]
    obtain ⟨s', he, hd⟩ := finish (cap := cap) (s := { notifyAll s p with ps := upd (notifyAll s p).ps p { (notifyAll s p).ps p with running := false } })
      (i := i) (p := p) (t := t) (by simp [notifyAll, hs, woken_here]) (by simp [notifyAll, upd, hq, hc])
    exact ⟨_, s', .inr rfl, by rw [exec, h1]; exact he, hd⟩
  | cons a r =>
    have hne : ((s.ps p).q.isEmpty) = false := by rw [hq]; rfl
    let s1 : S := { s with ps := upd s.ps p { runHead (s.ps p) with running := true } }
    have h0 : step cap s (.deq p) = some s1 := by simp only [step, hfree, hne]; rfl
    have hp1 : s1.ps p = { s.ps p with q := r, ran := (s.ps p).ran ++ [a], running := true } := by
      simp [s1, upd, runHead, hq]
    have hf1 : free (s1.ps p) = true := by rw [hp1]; simp [free, hf.1, hf.2]
    have hr1 : (s1.ps p).running = true := by rw [hp1]
    have h1 : step cap s1 (.endBatch p) = some { notifyAll s1 p with ps := upd (notifyAll s1 p).ps p { (notifyAll s1 p).ps p with running := false } } := by
      simp [step, hf1, hr1]
    obtain ⟨s', he, hd⟩ := finish (cap := cap) (s := { notifyAll s1 p with ps := upd (notifyAll s1 p).ps p { (notifyAll s1 p).ps p with running := false } })
      (i := i) (p := p) (t := t) (by simp [notifyAll, s1, hs, woken_here]) (by
        simp only [notifyAll, upd, if_true, hp1]
        rw [hq] at hlen; simp at hlen; omega)
    exact ⟨_, s', .inl rfl, by rw [exec, h0]; simp only [exec, h1]; exact he, hd⟩

/-- `DispatchLocalBrief` needs nobody at all: its task is accepted in the first round, or in the second after running one task. -/
theorem C119_local {cap : Nat} (hc : 0 < cap) {s : S} (h : Reaches cap s) (p t : Nat) (r : List Nat) (hl : (s.ps p).loc = t :: r) :
    ∃ l s', (l = [.localTry p] ∨ l = [.localTry p, .localTry p]) ∧ exec (step cap) s l = some s' ∧ (s'.ps p).loc = r ∧
      (s'.ps p).acc = (s.ps p).acc ++ [t] := by
  have I := inv hc h
  have hlen := I.len p
  by_cases hroom : (s.ps p).q.length < cap
  · refine ⟨_, enqueue { s with ps := upd s.ps p { s.ps p with loc := r } } p t, .inl rfl, ?_, by simp [enqueue, upd], by simp [enqueue, upd]⟩
    simp only [exec, step, hl]
    rw [if_pos hroom]
  · cases hq : (s.ps p).q with
    | nil => rw [hq] at hroom; exact absurd hc hroom
    | cons a q =>
      let s1 : S := { s with ps := upd s.ps p (runHead (s.ps p)) }
      have h0 : step cap s (.localTry p) = some s1 := by simp only [step, hl]; rw [if_neg hroom]
      have hp1 : s1.ps p = { s.ps p with q := q, ran := (s.ps p).ran ++ [a] } := by simp [s1, upd, runHead, hq]
      have hl1 : (s1.ps p).loc = t :: r := by rw [hp1]; exact hl
      have hr1 : (s1.ps p).q.length < cap := by rw [hp1]; rw [hq] at hlen; simp at hlen; exact hlen
      have ha1 : (s1.ps p).acc = (s.ps p).acc := by rw [hp1]
      refine ⟨_, enqueue { s1 with ps := upd s1.ps p { s1.ps p with loc := r } } p t, .inr rfl, ?_, by simp [enqueue, upd], by simp [enqueue, upd, ha1]⟩
      simp only [exec, h0]
      simp only [step, hl1]
      rw [if_pos hr1]

/-! ### Two dispatchers that migrate fibers to each other -/

/-- Both queues are full and each dispatcher waits for room in the other. -/
def Stuck (cap : Nat) (s : S) : Prop :=
  (∃ t, (s.ps 0).spin = some (1, t)) ∧ (∃ t, (s.ps 1).spin = some (0, t)) ∧ (s.ps 0).q.length = cap ∧ (s.ps 1).q.length = cap ∧
  (s.ps 0).loc = [] ∧ (s.ps 1).loc = []

theorem stuck_step {cap : Nat} {s s' : S} {a : Act} (h : Stuck cap s) (hs : step cap s a = some s') :
    Stuck cap s' ∧ (s'.ps 0).ran = (s.ps 0).ran ∧ (s'.ps 1).ran = (s.ps 1).ran := by
  obtain ⟨⟨t0, h0⟩, ⟨t1, h1⟩, q0, q1, l0, l1⟩ := h
  have keep : ∀ (P0 P1 : P), s'.ps 0 = P0 → s'.ps 1 = P1 → P0.spin = (s.ps 0).spin → P1.spin = (s.ps 1).spin → P0.q = (s.ps 0).q → P1.q = (s.ps 1).q →
      P0.loc = [] → P1.loc = [] → P0.ran = (s.ps 0).ran → P1.ran = (s.ps 1).ran →
      Stuck cap s' ∧ (s'.ps 0).ran = (s.ps 0).ran ∧ (s'.ps 1).ran = (s.ps 1).ran := by
    intro P0 P1 e0 e1 a b c d e f g i
    refine ⟨⟨⟨t0, by rw [e0, a, h0]⟩, ⟨t1, by rw [e1, b, h1]⟩, by rw [e0, c, q0], by rw [e1, d, q1], by rw [e0, e], by rw [e1, f]⟩, by rw [e0, g], by rw [e1, i]⟩
  have ne0 : ∀ p, (s.ps p).q.length < cap → p ≠ 0 ∧ p ≠ 1 := by
    intro p hp
    constructor
    · rintro rfl; omega
    · rintro rfl; omega
  have fr : ∀ p, free (s.ps p) = true → p ≠ 0 ∧ p ≠ 1 := by
    intro p hp
    constructor
    · rintro rfl; simp [free, h0] at hp
    · rintro rfl; simp [free, h1] at hp
  have same : s'.ps 0 = s.ps 0 → s'.ps 1 = s.ps 1 → Stuck cap s' ∧ (s'.ps 0).ran = (s.ps 0).ran ∧ (s'.ps 1).ran = (s.ps 1).ran :=
    fun e0 e1 => keep _ _ e0 e1 rfl rfl rfl rfl l0 l1 rfl rfl
  have u0 : ∀ (p : Nat) (x : P), p ≠ 0 ∧ p ≠ 1 → upd s.ps p x 0 = s.ps 0 ∧ upd s.ps p x 1 = s.ps 1 := by
    intro p x hp; simp [upd, Ne.symm hp.1, Ne.symm hp.2]
  cases a with
  | call i p t =>
    simp only [step] at hs
    split at hs
    · split at hs
      · cases hs; exact same rfl rfl
      · cases hs
    · split at hs
      · cases hs; exact same rfl rfl
      · cases hs
    · cases hs
  | first i =>
    simp only [step] at hs
    split at hs
    · simp only [Option.some.injEq] at hs
      split at hs
      · rename_i hl
        have := ne0 _ hl
        subst hs
        exact same (u0 _ _ this).1 (u0 _ _ this).2
      · subst hs; exact same rfl rfl
    · cases hs
  | prepare i =>
    simp only [step] at hs
    split at hs
    · cases hs; exact same rfl rfl
    · cases hs
  | retry i =>
    simp only [step] at hs
    split at hs
    · simp only [Option.some.injEq] at hs
      split at hs
      · rename_i hl
        have := ne0 _ hl
        subst hs
        exact same (u0 _ _ this).1 (u0 _ _ this).2
      · subst hs; exact same rfl rfl
    · cases hs
  | wait i =>
    simp only [step] at hs
    split at hs
    · cases hs; exact same rfl rfl
    · cases hs
  | deq p =>
    simp only [step] at hs
    split at hs
    · rename_i hg
      simp only [Bool.and_eq_true] at hg
      cases hs
      have := fr p hg.1
      exact same (u0 _ _ this).1 (u0 _ _ this).2
    · cases hs
  | mid p =>
    simp only [step] at hs
    split at hs
    · rename_i hg
      simp only [Bool.and_eq_true] at hg
      cases hs
      have := fr p hg.1
      exact same (u0 _ _ this).1 (u0 _ _ this).2
    · cases hs
  | endBatch p =>
    simp only [step] at hs
    split at hs
    · rename_i hg
      simp only [Bool.and_eq_true] at hg
      cases hs
      have := fr p hg.1
      refine same ?_ ?_ <;> simp [notifyAll, upd, Ne.symm this.1, Ne.symm this.2]
    · cases hs
  | localCall p t =>
    simp only [step] at hs
    split at hs
    · rename_i hg
      simp only [Bool.and_eq_true] at hg
      cases hs
      have : p ≠ 0 ∧ p ≠ 1 := ⟨by rintro rfl; simp [h0] at hg, by rintro rfl; simp [h1] at hg⟩
      exact same (u0 _ _ this).1 (u0 _ _ this).2
    · cases hs
  | localTry p =>
    simp only [step] at hs
    split at hs
    · rename_i t r hl
      simp only [Option.some.injEq] at hs
      have : p ≠ 0 ∧ p ≠ 1 := ⟨by rintro rfl; simp [l0] at hl, by rintro rfl; simp [l1] at hl⟩
      split at hs
      · subst hs; refine same ?_ ?_ <;> simp [enqueue, upd, Ne.symm this.1, Ne.symm this.2]
      · subst hs; exact same (u0 _ _ this).1 (u0 _ _ this).2
    · cases hs
  | migrate p d t =>
    simp only [step] at hs
    split at hs
    · rename_i hg
      simp only [Bool.and_eq_true] at hg
      cases hs
      have := fr p hg.1.1.1
      exact same (u0 _ _ this).1 (u0 _ _ this).2
    · cases hs
  | migTry p =>
    simp only [step] at hs
    split at hs
    · rename_i d t hsp
      split at hs
      · rename_i hl
        have hd := ne0 _ hl
        have hp : p ≠ 0 ∧ p ≠ 1 := by
          constructor
          · rintro rfl; rw [h0] at hsp; cases hsp; omega
          · rintro rfl; rw [h1] at hsp; cases hsp; omega
        cases hs
        refine same ?_ ?_ <;> simp [enqueue, upd, Ne.symm hd.1, Ne.symm hd.2, Ne.symm hp.1, Ne.symm hp.2]
      · cases hs; exact same rfl rfl
    · cases hs

theorem stuck_forever {cap : Nat} {s s' : S} (h : Stuck cap s) (hr : From cap s s') :
    Stuck cap s' ∧ (s'.ps 0).ran = (s.ps 0).ran ∧ (s'.ps 1).ran = (s.ps 1).ran :=
  Reachable.invariant (fun x => Stuck cap x ∧ (x.ps 0).ran = (s.ps 0).ran ∧ (x.ps 1).ran = (s.ps 1).ran)
    (fun x hx => by subst hx; exact ⟨h, rfl, rfl⟩)
    (fun x a x' hx hst => by
      have := stuck_step hx.1 hst
      exact ⟨this.1, this.2.1.trans hx.2.1, this.2.2.trans hx.2.2⟩) hr

/-- The queues of proactors 0 and 1 have `a` and `b` tasks and nothing else happened. -/
structure Filled (cap a b : Nat) (s : S) : Prop where
  r : Reaches cap s
  th : s.th 0 = .idle ∨ ∃ p t w, s.th 0 = .done p t w
  st : ∀ t, a + b ≤ t → s.stat t = .unborn
  q0 : (s.ps 0).q.length = a
  q1 : (s.ps 1).q.length = b
  f0 : free (s.ps 0) = true
  f1 : free (s.ps 1) = true
  r0 : (s.ps 0).running = false
  r1 : (s.ps 1).running = false

theorem fill_one {cap : Nat} {s : S} (p t : Nat) (hr : Reaches cap s) (hth : s.th 0 = .idle ∨ ∃ p t w, s.th 0 = .done p t w) (hst : s.stat t = .unborn)
    (hl : (s.ps p).q.length < cap) : ∃ s', Reaches cap s' ∧ s'.th 0 = .done p t false ∧ s'.stat = upd s.stat t (.accepted p) ∧
      s'.ps = upd s.ps p { s.ps p with q := (s.ps p).q ++ [t], acc := (s.ps p).acc ++ [t] } := by
  have h1 : step cap s (.call 0 p t) = some (setTh { s with stat := upd s.stat t (.caller 0) } 0 (.first p t)) := by
    rcases hth with h | ⟨_, _, _, h⟩ <;> simp [step, h, hst]
  have h2 : step cap (setTh { s with stat := upd s.stat t (.caller 0) } 0 (.first p t)) (.first 0) =
      some (setTh (enqueue (setTh { s with stat := upd s.stat t (.caller 0) } 0 (.first p t)) p t) 0 (.done p t false)) := by
    simp only [step, th_upd]
    rw [if_pos (by exact hl)]
  refine ⟨setTh (enqueue (setTh { s with stat := upd s.stat t (.caller 0) } 0 (.first p t)) p t) 0 (.done p t false),
    Reachable.exec hr [.call 0 p t, .first 0] (by simp only [exec, h1, h2]), th_upd _ _ _, ?_, rfl⟩
  funext j
  simp only [setTh, enqueue, upd]
  split <;> rfl

theorem fill0 {cap : Nat} : ∀ a, a ≤ cap → ∃ s, Filled cap a 0 s
  | 0, _ => ⟨{}, .init rfl trivial, .inl rfl, fun _ _ => rfl, rfl, rfl, rfl, rfl, rfl, rfl⟩
  | a + 1, h => by
    obtain ⟨s, F⟩ := fill0 (cap := cap) a (by omega)
    obtain ⟨s', r, th, st, ps⟩ := fill_one 0 a F.r F.th (F.st a (by omega)) (by rw [F.q0]; omega)
    refine ⟨s', r, .inr ⟨_, _, _, th⟩, ?_, ?_, ?_, ?_, ?_, ?_, ?_⟩
    · intro t ht
      rw [st]; simp only [upd]; rw [if_neg (by omega)]; exact F.st t (by omega)
    · rw [ps]; simp [upd, F.q0]
    · rw [ps]; simpa [upd] using F.q1
    · rw [ps]; simpa [upd, free] using F.f0
    · rw [ps]; simpa [upd, free] using F.f1
    · rw [ps]; simpa [upd] using F.r0
    · rw [ps]; simpa [upd] using F.r1

theorem fill1 {cap : Nat} : ∀ b, b ≤ cap → ∃ s, Filled cap cap b s
  | 0, _ => fill0 cap (Nat.le_refl _)
  | b + 1, h => by
    obtain ⟨s, F⟩ := fill1 (cap := cap) b (by omega)
    obtain ⟨s', r, th, st, ps⟩ := fill_one 1 (cap + b) F.r F.th (F.st _ (by omega)) (by rw [F.q1]; omega)
    refine ⟨s', r, .inr ⟨_, _, _, th⟩, ?_, ?_, ?_, ?_, ?_, ?_, ?_⟩
    · intro t ht
      rw [st]; simp only [upd]; rw [if_neg (by omega)]; exact F.st t (by omega)
    · rw [ps]; simpa [upd] using F.q0
    · rw [ps]; simp [upd, F.q1]
    · rw [ps]; simpa [upd, free] using F.f0
    · rw [ps]; simpa [upd, free] using F.f1
    · rw [ps]; simpa [upd] using F.r0
    · rw [ps]; simpa [upd] using F.r1

/-- Whatever the capacity: two proactors with full queues, each of which migrates a fiber to the other, never run a task again and never have room
for another. -/
theorem C119_migrate_deadlock (cap : Nat) : ∃ s, Reaches cap s ∧ (s.ps 0).q.length = cap ∧ (s.ps 1).q.length = cap ∧
    ∀ s', From cap s s' → (s'.ps 0).ran = (s.ps 0).ran ∧ (s'.ps 1).ran = (s.ps 1).ran ∧ (s'.ps 0).q.length = cap ∧ (s'.ps 1).q.length = cap := by
  obtain ⟨s, F⟩ := fill1 (cap := cap) cap (Nat.le_refl _)
  have hf0 := F.f0
  have hf1 := F.f1
  have hst1 := F.st (cap + cap) (by omega)
  have hst2 := F.st (cap + cap + 1) (by omega)
  let s1 : S := { s with ps := upd s.ps 0 { s.ps 0 with spin := some (1, cap + cap) }, stat := upd s.stat (cap + cap) (.moving 0) }
  let s2 : S := { s1 with ps := upd s1.ps 1 { s1.ps 1 with spin := some (0, cap + cap + 1) }, stat := upd s1.stat (cap + cap + 1) (.moving 1) }
  have e1 : step cap s (.migrate 0 1 (cap + cap)) = some s1 := by simp [step, hf0, F.r0, hst1, s1]
  have p1 : s1.ps 1 = s.ps 1 := by simp [s1, upd]
  have e2 : step cap s1 (.migrate 1 0 (cap + cap + 1)) = some s2 := by
    have : s1.stat (cap + cap + 1) = .unborn := by simp [s1, upd, hst2]
    have hg : (free (s1.ps 1) && !(s1.ps 1).running && (0 : Nat) != 1 && decide (s1.stat (cap + cap + 1) = .unborn)) = true := by
      rw [p1, hf1, F.r1, this]; decide
    simp only [step]
    rw [if_pos hg]
  have hr : Reaches cap s2 := Reachable.exec F.r [.migrate 0 1 (cap + cap), .migrate 1 0 (cap + cap + 1)] (by simp only [exec, e1, e2])
  have l0 : (s.ps 0).loc = [] := by simp [free] at hf0; exact hf0.1
  have l1 : (s.ps 1).loc = [] := by simp [free] at hf1; exact hf1.1
  have hs : Stuck cap s2 := by
    refine ⟨⟨cap + cap, ?_⟩, ⟨cap + cap + 1, ?_⟩, ?_, ?_, ?_, ?_⟩ <;> simp [s2, s1, upd, F.q0, F.q1, l0, l1]
  refine ⟨s2, hr, hs.2.2.1, hs.2.2.2.1, fun s' h' => ?_⟩
  have := stuck_forever hs h'
  exact ⟨this.2.1, this.2.2, this.1.2.2.1, this.1.2.2.2.1⟩

theorem reach (cap : Nat) (l : List Act) (s : S) (h : exec (step cap) {} l = some s) : Reaches cap s := Reachable.exec (.init rfl trivial) l h

/-- A caller sleeps on a full queue of one task, and gets in after that was run. -/
theorem C119_case : (∃ s, Reaches 1 s ∧ s.th 0 = .asleep 0 1 ∧ (s.ps 0).q = [0]) ∧
    ∃ s, Reaches 1 s ∧ s.th 0 = .done 0 1 true ∧ (s.ps 0).ran = [0] ∧ (s.ps 0).q = [1] :=
  ⟨⟨_, reach 1 [.call 0 0 0, .first 0, .call 0 0 1, .first 0, .prepare 0, .retry 0, .wait 0] _ rfl, rfl, rfl⟩,
   ⟨_, reach 1 [.call 0 0 0, .first 0, .call 0 0 1, .first 0, .prepare 0, .retry 0, .wait 0, .deq 0, .endBatch 0, .prepare 0, .retry 0] _ rfl, rfl, rfl, rfl⟩⟩

end Verif.TaskQ
