import Verif.ECRA.Lemmas
/-! C97: an event count with any client over the memory of C++ threads. -/
namespace Verif.ECRA
open Verif.Common Verif.RelAcq

/-- States that can be reached with the orders `c` within the width of `val_`. -/
abbrev Reached (c : Cfg) (s : State) : Prop := Reach Init (step c) Fits s

/-- The call of `notify` or `notifyAll` named `n` has returned. -/
def Returned (s : State) (n : Nat) : Prop := s.note n = true ∧ (s.zero n = true ∨ s.secd n = true)

/-- All that thread `t` has read to evaluate its condition since its last `prepareWait` is as new as what the caller of notification `n` had seen (and written). -/
def Evaluated (s : State) (t n : Nat) : Prop := ∀ k ts, s.rd t k = some ts → s.nv n (.dat k) ≤ ts

theorem inv_of {c : Cfg} (hc : Strong c) {s : State} (h : Reached c s) : Inv s := Reach.invariant Inv (fun s h _ => inv_init s h) (fun s a s' hi hq hs _ => inv_step hc s a s' hi hq hs) h

/-- C97, the contract of the event count, for any client: a thread that sleeps has evaluated its condition with all that the caller of each returned notification had done, except for a
`notify` that woke another thread instead. -/
theorem C97_no_lost_wakeup {c : Cfg} (hc : Strong c) {s : State} (h : Reached c s) {t n : Nat} (ht : s.th[t]? = some .sleep) (hn : Returned s n) :
    Evaluated s t n ∨ (s.alln n = false ∧ ∃ u, u ≠ t ∧ s.took n = some u) := by
  have hI := inv_of hc h
  obtain ⟨H, hs⟩ := hI.good t _ ht
  rcases Nat.lt_or_ge (s.pos t) n with hlt | hge
  · rcases hn.2 with hz | hz
    · rw [H.later n hn.1 hlt] at hz; cases hz
    · obtain ⟨u, hu, htk⟩ := hs n hz hlt
      exact Or.inr ⟨(hI.all n u htk).1, u, hu, htk⟩
  · exact Or.inl fun k ts hk => Nat.le_trans (H.seen n hn.1 hge _) (H.rd k ts hk)

/-- C97 for `notifyAll`: without exception. -/
theorem C97_notify_all {c : Cfg} (hc : Strong c) {s : State} (h : Reached c s) {t n : Nat} (ht : s.th[t]? = some .sleep) (hn : Returned s n) (ha : s.alln n = true) :
    Evaluated s t n := by
  rcases C97_no_lost_wakeup hc h ht hn with h1 | ⟨h1, _⟩
  · exact h1
  · rw [ha] at h1; cases h1

/-- C97: a `notify` that has returned and has woken nobody: all sleepers have evaluated their conditions with what its caller had done. -/
theorem C97_notify_none {c : Cfg} (hc : Strong c) {s : State} (h : Reached c s) {t n : Nat} (ht : s.th[t]? = some .sleep) (hn : Returned s n) (hu : s.took n = none) :
    Evaluated s t n := by
  rcases C97_no_lost_wakeup hc h ht hn with h1 | ⟨_, u, _, h1⟩
  · exact h1
  · rw [hu] at h1; cases h1

/-- C97: the threads that sleep are the ones in the wait queue, each once. -/
theorem C97_queue {c : Cfg} (hc : Strong c) {s : State} (h : Reached c s) : s.q.Nodup ∧ ∀ t, t ∈ s.q ↔ s.th[t]? = some .sleep := ⟨(inv_of hc h).nodup, (inv_of hc h).q⟩

/-- C97: when `notifyAll` goes through the queue, everyone who sleeps is woken. -/
theorem C97_all_woken {c : Cfg} (hc : Strong c) {s s' : State} (h : Reached c s) {t n : Nat} (ht : s.th[t]? = some (.nlock n true)) (hst : step c s (.wake t) = some s') (hQ : Fits s')
    (u : Nat) : s'.th[u]? ≠ some .sleep := by
  have hI := inv_of hc (.step h hst hQ)
  intro hu
  have hm := (hI.q u).2 hu
  simp only [step, ht] at hst
  cases hst
  cases hm

/-- C97: when `notify` goes through the queue and someone sleeps, one of them is woken and the others sleep on. -/
theorem C97_one_woken {c : Cfg} (hc : Strong c) {s s' : State} (h : Reached c s) {t n v : Nat} (ht : s.th[t]? = some (.nlock n false)) (hv : s.th[v]? = some .sleep)
    (hst : step c s (.wake t) = some s') : ∃ u : Nat, s.th[u]? = some .sleep ∧ s'.th[u]? = some .drop ∧ ∀ w : Nat, w ≠ u → (s.th[w]? = some .sleep ↔ s'.th[w]? = some .sleep) := by
  have hI := inv_of hc h
  have hI' : Inv s' := by
    simp only [step, ht] at hst
    cases hst
    exact inv_wake hI ht
  have hm := (hI.q v).2 hv
  simp only [step, ht] at hst
  cases hq : s.q with
  | nil => rw [hq] at hm; cases hm
  | cons u q =>
    have hu : s.th[u]? = some .sleep := (hI.q u).1 (by rw [hq]; exact List.mem_cons_self ..)
    have hut : t ≠ u := fun e => by rw [← e, ht] at hu; cases hu
    have hq' : s'.q = q := by cases hst; simp [doWake, hq]
    have hth' : s'.th[u]? = some .drop := by
      cases hst
      simp only [doWake, hq, Bool.false_eq_true, if_false]
      exact set_self (p := .sleep) _ (by rw [List.getElem?_set_ne hut]; exact hu)
    refine ⟨u, hu, hth', fun w hw => ?_⟩
    rw [← hI.q, ← hI'.q, hq', hq, List.mem_cons]
    simp [hw]

/-- C97: the return value: a `notify` that finds no waiter at all finds no thread asleep either. -/
theorem C97_no_waiters {c : Cfg} (hc : Strong c) {s s' : State} (h : Reached c s) {t ts : Nat} {all : Bool} (hst : step c s (.notify t all ts) = some s') (hi : s'.th[t]? = some .idle)
    (u : Nat) : s.th[u]? ≠ some .sleep := by
  intro hu
  have hI := inv_of hc h
  simp only [step] at hst
  split at hst
  case isFalse => cases hst
  rename_i ht
  unfold doNotify at hst
  split at hst
  · cases hst
  rename_i v m hm
  cases hst
  obtain ⟨y, w, L, rfl⟩ := rmw_facts hm
  have htop := hI.msgs.top_eq L
  subst htop
  have h2 := hI.msgs.last y L.src
  have h3 := pos_of (f := Pc.holds) hu rfl
  have hi : (s.th.set t (if y.val % E = 0 then Pc.idle else .nlock (s.top + 1) all))[t]? = some .idle := hi
  rw [set_self _ ht, if_neg (by omega)] at hi
  cases hi

/-! ### The orders are needed -/

def fitsB (s : State) : Bool :=
  decide (s.th.length < E) && (List.range s.th.length).all fun t => match s.th[t]? with | some (.key _) => decide (s.cnt s.top < s.cnt (s.pos t) + E) | _ => true

theorem fitsB_ok {s : State} (h : fitsB s = true) : Fits s := by
  simp only [fitsB, Bool.and_eq_true, decide_eq_true_eq, List.all_eq_true, List.mem_range] at h
  refine ⟨h.1, fun t e ht => ?_⟩
  have := h.2 t (lt_of_get ht)
  rw [ht] at this
  simpa using this

/-- Runs `acts`, all states within the width. -/
def run (c : Cfg) : State → List Act → Option State
  | s, [] => some s
  | s, a :: as =>
    match step c s a with
    | none => none
    | some s' => if fitsB s' then run c s' as else none

theorem run_ok {c : Cfg} {acts : List Act} : ∀ {s s' : State}, Reached c s → run c s acts = some s' → Reached c s' := by
  induction acts with
  | nil => intro s s' h e; cases e; exact h
  | cons a as ih =>
    intro s s' h e
    simp only [run] at e
    split at e
    · cases e
    rename_i s1 h1
    split at e
    · exact ih (.step h h1 (fitsB_ok ‹_›)) e
    · cases e

theorem witness (c : Cfg) (acts : List Act) (p : State → Bool) (h : (run c (startOf 3 (fun _ => 0)) acts).any p = true) : ∃ s, Reached c s ∧ p s = true := by
  cases e : run c (startOf 3 (fun _ => 0)) acts with
  | none => rw [e] at h; cases h
  | some s => rw [e] at h; exact ⟨s, run_ok (.init ⟨3, _, rfl⟩ (fitsB_ok (by decide +kernel))) e, h⟩

/-- Thread 0 sets a flag and notifies, finding no waiters; thread 1 then takes a key, reads the old flag, and sleeps. -/
def late : List Act := [.client 0 (.store 0 1 false 1), .notify 0 true 0, .prep 1 1, .client 1 (.load 0 false 0), .wait 1 2]

/-- C97: acquire in `prepareWait` and release in the notification are needed, else a thread sleeps that has evaluated its condition with an old value, after `notifyAll` has returned. -/
theorem C97_orders_needed (c : Cfg) (h : ¬ Strong c) :
    ∃ s : State, Reached c s ∧ s.th[1]? = some .sleep ∧ Returned s 1 ∧ s.alln 1 = true ∧ ¬ Evaluated s 1 1 := by
  obtain ⟨pa, pr, nr⟩ := c
  have hc : pa = false ∨ nr = false := by
    cases pa <;> cases nr <;> simp <;> exact h ⟨rfl, rfl⟩
  have hw : (run ⟨pa, pr, nr⟩ (startOf 3 (fun _ => 0)) late).any
      (fun s => decide (s.th[1]? = some Pc.sleep) && s.note 1 && s.zero 1 && s.alln 1 && decide (s.rd 1 0 = some 0) && decide (s.nv 1 (.dat 0) = 1)) = true := by
    clear h
    rcases hc with rfl | rfl <;> revert pr
    · revert nr; decide +kernel
    · revert pa; decide +kernel
  obtain ⟨s, hs, hp⟩ := witness _ _ _ hw
  simp only [Bool.and_eq_true, decide_eq_true_eq] at hp
  obtain ⟨⟨⟨⟨⟨p1, p2⟩, p3⟩, p4⟩, p5⟩, p6⟩ := hp
  refine ⟨s, hs, p1, ⟨p2, Or.inl p3⟩, p4, fun hE => ?_⟩
  have := hE 0 0 p5
  omega

/-- C97 for the orders of the code: they are strong enough. -/
theorem C97_code {s : State} (h : Reached theCode s) {t n : Nat} (ht : s.th[t]? = some .sleep) (hn : Returned s n) :
    Evaluated s t n ∨ (s.alln n = false ∧ ∃ u, u ≠ t ∧ s.took n = some u) :=
  C97_no_lost_wakeup ⟨rfl, rfl⟩ h ht hn

/-! ### The hypotheses can be met -/

/-- Thread 1 sleeps; the notification 1 had returned before and its flag was seen; thread 2 was woken by notification 4 and thread 1 was not. -/
example : ∃ s, Reached theCode s ∧ s.th[1]? = some .sleep ∧ Returned s 1 ∧ s.rd 1 0 = some 1 ∧ Returned s 4 ∧ s.took 4 = some 2 := by
  obtain ⟨s, h, hp⟩ := witness theCode [.client 0 (.store 0 1 false 1), .notify 0 true 0, .prep 2 1, .wait 2 2, .prep 1 2, .client 1 (.load 0 false 1), .wait 1 3, .notify 0 false 3, .wake 0]
    (fun s => decide (s.th[1]? = some Pc.sleep) && (s.note 1 && s.zero 1) && decide (s.rd 1 0 = some 1) && (s.note 4 && s.secd 4) && decide (s.took 4 = some 2)) (by decide +kernel)
  simp only [Bool.and_eq_true, decide_eq_true_eq] at hp
  obtain ⟨⟨⟨⟨p1, p2⟩, p3⟩, p4⟩, p5⟩ := hp
  exact ⟨s, h, p1, ⟨p2.1, Or.inl p2.2⟩, p3, ⟨p4.1, Or.inr p4.2⟩, p5⟩

/-- With the orders of the code the thread of `late` cannot read the old flag. -/
example : run theCode (startOf 3 (fun _ => 0)) late = none := by
  have : (run theCode (startOf 3 (fun _ => 0)) late).isNone = true := by decide +kernel
  simpa using this

/-- Two sleepers and a `notifyAll` on its way to the queue: it wakes both; one of them may run into its time limit before. -/
example : ∃ s, Reached theCode s ∧ s.th = [.nlock 5 true, .sleep, .sleep] ∧ (step theCode s (.wake 0)).any (fun s' : State => decide (s'.th = [Pc.idle, Pc.drop, Pc.drop])) = true ∧
    (step theCode s (.timeout 1)).any (fun s' : State => decide (s'.q = [2])) = true := by
  obtain ⟨s, h, hp⟩ := witness theCode [.prep 1 0, .drop 1 1, .prep 1 2, .wait 1 3, .prep 2 3, .wait 2 4, .notify 0 true 4]
    (fun s => decide (s.th = [.nlock 5 true, .sleep, .sleep]) && (step theCode s (.wake 0)).any (fun s' : State => decide (s'.th = [Pc.idle, Pc.drop, Pc.drop])) &&
      (step theCode s (.timeout 1)).any (fun s' : State => decide (s'.q = [2]))) (by decide +kernel)
  simp only [Bool.and_eq_true, decide_eq_true_eq] at hp
  exact ⟨s, h, hp.1.1, hp.1.2, hp.2⟩

end Verif.ECRA
