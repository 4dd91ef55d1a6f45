import Verif.BlockingCounter.Model
/-!
# C22: `BlockingCounter` releases waiters exactly at zero or on cancel
-/
namespace Verif.BlockingCounter
open Verif.Common Verif.EventCount

abbrev R (s : St) : Prop := Reach (MInit Fresh) (step (monClient mon)) NoWrap s

/-- The word in terms of the history. -/
def WordOk (g : G) : Prop :=
  g.decs ≤ g.added ∧ g.added - g.decs < flag ∧ g.cnt = g.added - g.decs + (if g.canc then flag else 0)

theorem wordOk {s : St} (h : R s) : WordOk s.g := by
  refine mon_inv (fun _ h => h.1) WordOk ?_ ?_ ?_ ?_ h
  · rintro g ⟨n, hn, rfl⟩; simp [WordOk, flag]; omega
  · intro k g r g' hg ht
    simp only [mon, test] at ht
    grind
  · intro o g g' b hg ho
    simp only [mon, op] at ho
    unfold WordOk flag at *
    cases o <;> simp only at ho
    · grind
    · grind
    · grind
    · grind
  · intro k r g hg; exact hg

theorem monOk : MonOk mon := by
  constructor
  · intro k g r g' ht k' h
    simp only [mon, test] at *
    grind
  · intro o g g' ho k' h
    simp only [mon, test, op, flag] at *
    cases o <;> simp only at ho
    all_goals grind
  · intro k r g k' h; exact h

/-- The usage rule "count above zero" is "fewer `Dec` calls than added". -/
theorem C22_dec_allowed {s : St} (h : R s) : 0 < s.g.cnt % flag ↔ s.g.decs < s.g.added := by
  obtain ⟨h1, h2, h3⟩ := wordOk h
  unfold flag at *
  split at h3 <;> omega

/-- The counter is done: everything that was added was decremented, or `Cancel` was called. -/
def Done (g : G) : Prop := g.added = g.decs ∨ g.canc = true

theorem done_iff {s : St} (h : R s) : Done s.g ↔ (mon.test () s.g).isSome := by
  obtain ⟨h1, h2, h3⟩ := wordOk h
  simp only [mon, test, Done]
  unfold flag at *
  cases hc : s.g.canc <;> simp only [hc, if_true] at h3
  · simp at h3
    have : s.g.cnt = 0 ∨ 2 ^ 63 ≤ s.g.cnt ↔ s.g.added = s.g.decs := by omega
    simp only [this, reduceCtorEq, or_false]
    split <;> simp_all
  · have : s.g.cnt = 0 ∨ 2 ^ 63 ≤ s.g.cnt := by omega
    simp [this]

/-- C22. The step in which a waiting call gets its outcome: if `Wait` / `WaitUntil` is going to return true then at this
moment as many `Dec` happened as were added, and `Cancel` was not called. -/
theorem C22_true_only_at_zero {s s' : St} (h : R s) {a : Act Chc} (hs : step (monClient mon) s a = some s') {t : Nat}
    {x' : Th (MPc Unit Nat)} {v : Nat} (hx' : s'.th[t]? = some x') (hf : x'.cl = .fin () (some v) ∨ x'.cl = .dropX () (some v))
    (hx : ∀ x, s.th[t]? = some x → x.cl ≠ .fin () (some v) ∧ x.cl ≠ .dropX () (some v))
    (hr : result (some v) = true) : s.g.added = s.g.decs ∧ s.g.canc = false := by
  have ht := mon_result (fun _ h => h.1) h hs hx' hf hx
  obtain ⟨h1, h2, h3⟩ := wordOk h
  simp only [mon, test] at ht
  simp only [result, decide_eq_true_eq] at hr
  unfold flag at *
  cases hc : s.g.canc <;> simp only [hc, if_true] at h3
  · simp at h3
    grind
  · grind

/-- C22. If a waiting call is going to return false without having timed out, `Cancel` was called. -/
theorem C22_false_only_if_cancelled {s s' : St} (h : R s) {a : Act Chc} (hs : step (monClient mon) s a = some s') {t : Nat}
    {x' : Th (MPc Unit Nat)} {v : Nat} (hx' : s'.th[t]? = some x') (hf : x'.cl = .fin () (some v) ∨ x'.cl = .dropX () (some v))
    (hx : ∀ x, s.th[t]? = some x → x.cl ≠ .fin () (some v) ∧ x.cl ≠ .dropX () (some v))
    (hr : result (some v) = false) : s.g.canc = true := by
  have ht := mon_result (fun _ h => h.1) h hs hx' hf hx
  obtain ⟨h1, h2, h3⟩ := wordOk h
  simp only [mon, test] at ht
  simp only [result, decide_eq_false_iff_not] at hr
  unfold flag at *
  cases hc : s.g.canc <;> simp only [hc, if_true] at h3
  · simp at h3
    grind
  · rfl

/-- C22. Only a call with a deadline (`WaitUntil`, `WaitFor`) ends as timed out. -/
theorem C22_timeout_only_timed {s s' : St} (h : R s) {a : Act Chc} (hs : step (monClient mon) s a = some s') {t : Nat}
    {x' : Th (MPc Unit Nat)} (hx' : s'.th[t]? = some x') (hf : x'.cl = .fin () none ∨ x'.cl = .dropX () none)
    (hx : ∀ x, s.th[t]? = some x → x.cl ≠ .fin () none ∧ x.cl ≠ .dropX () none) :
    ∃ x, s.th[t]? = some x ∧ x.cl = .wait () true :=
  mon_timeout (fun _ h => h.1) h hs hx' hf hx

/-- C22. If the counter is at zero or cancelled while a fiber is blocked in `Wait`, then some other fiber is before the end
of the `notifyAll` of its `Dec` or `Cancel`. -/
theorem C22_no_stranded_waiter {s : St} (h : R s) {t : Nat} (hb : MBlocked s t ()) (hd : Done s.g) :
    ∃ u, u ≠ t ∧ MNotifying s u :=
  mon_lost monOk (fun _ h => h.1) h (mon_w_all monOk rfl h) hb ((done_iff h).1 hd)

/-- C22. When every fiber is idle or blocked in `Wait` and somebody is blocked, the counter is above zero and not cancelled. -/
theorem C22_quiescent {s : St} (h : R s) (hq : MQuiet s) {t : Nat} (hb : MBlocked s t ()) :
    s.g.decs < s.g.added ∧ s.g.canc = false := by
  have hn : ¬ Done s.g := by
    intro hd
    obtain ⟨u, -, hu⟩ := C22_no_stranded_waiter h hb hd
    exact mon_quiet hq u hu
  obtain ⟨h1, -, -⟩ := wordOk h
  unfold Done at hn
  cases hc : s.g.canc <;> simp [hc] at hn
  exact ⟨by omega, rfl⟩

/-- C22. None of the CHECKs in the wait and notify code fails. -/
theorem C22_no_crash {s : St} (h : R s) : s.bad = false := (einv_reach (fun _ h => h.1) h).bad

/-! ## Concrete executions -/

theorem fresh {n : Nat} (h : n < 2 ^ 32) : Fresh { cnt := n, added := n, decs := 0, canc := false } := ⟨n, h, rfl⟩

def waitT (t k : Nat) : List (Act Chc) := List.replicate k (.go t (.await () false))
def decT (t k : Nat) : List (Act Chc) := List.replicate k (.go t (.op .dec))
def cancelT (t k : Nat) : List (Act Chc) := List.replicate k (.go t (.op .cancel))

/-- One of two `Dec` done: the waiter is blocked. -/
example : ∃ s, R s ∧ MBlocked s 0 () ∧ s.g.cnt = 1 :=
  mon_ex (fresh (n := 2) (by decide)) 3 (waitT 0 7 ++ decT 1 1) (fun s => mBlockedB s 0 () && s.g.cnt == 1)
    (fun s h => by simp only [Bool.and_eq_true] at h; exact ⟨mBlocked_of h.1, by simpa using h.2⟩) (by decide +kernel)

/-- After the second `Dec` and its `notifyAll` the waiter returns true. -/
example : ∃ s, R s ∧ s.th[0]?.map Th.cl = some (.fin () (some 0)) ∧ result (some 0) = true :=
  mon_ex (fresh (n := 2) (by decide)) 3 (waitT 0 7 ++ decT 1 1 ++ decT 2 6 ++ waitT 0 6)
    (fun s => decide (s.th[0]?.map Th.cl = some (.fin () (some 0)))) (fun s h => ⟨by simpa using h, by decide⟩) (by decide +kernel)

/-- After `Cancel` the waiter returns false. -/
example : ∃ s, R s ∧ s.th[0]?.map Th.cl = some (.fin () (some (flag + 2))) ∧ result (some (flag + 2)) = false :=
  mon_ex (fresh (n := 2) (by decide)) 3 (waitT 0 7 ++ cancelT 1 6 ++ waitT 0 6)
    (fun s => decide (s.th[0]?.map Th.cl = some (.fin () (some (flag + 2))))) (fun s h => ⟨by simpa using h, by decide⟩)
    (by decide +kernel)

/-- The counter has reached zero, the waiter is blocked, the notification is pending. -/
example : ∃ s, R s ∧ MBlocked s 0 () ∧ Done s.g ∧ MNotifying s 1 :=
  mon_ex (fresh (n := 1) (by decide)) 3 (waitT 0 7 ++ decT 1 1)
    (fun s => mBlockedB s 0 () && (s.g.added == s.g.decs && mNotifyingB s 1))
    (fun s h => by simp only [Bool.and_eq_true] at h; exact ⟨mBlocked_of h.1, .inl (by simpa using h.2.1), mNotifying_of h.2.2⟩)
    (by decide +kernel)

end Verif.BlockingCounter
