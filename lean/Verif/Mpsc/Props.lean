import Verif.Mpsc.Lemmas
/-!
# C09: `MPSCIntrusiveQueue` delivers each pushed node once, in the order of the tail exchanges
-/
namespace Verif.Mpsc
open Verif.Common

/-- C09. In every interleaving of any number of producers with the consumer, and whatever the clients do to
the nodes they own: the popped nodes are exactly the first pushed nodes, in push (exchange) order — none is lost,
repeated, invented or reordered — and the queue never touches a node that belongs to a client. -/
theorem mpsc_fifo (s : State) (h : Reachable Init step s) :
    (∃ rest, s.pushed = s.popped ++ rest) ∧ s.bad = false :=
  ⟨⟨_, (inv_reach h).log⟩, (inv_reach h).bad⟩

theorem log_empty {s : State} (h : Inv s) : s.pushed = s.popped ↔ s.chain = [0] := by
  rw [h.log]
  constructor
  · intro e
    have e : s.chain.filter (fun x => decide (x ≠ 0)) = [] := by simpa using e
    have hall : ∀ x ∈ s.chain, x = 0 := by
      intro x hx
      have := List.filter_eq_nil_iff.mp e x hx
      simpa using this
    have hn := h.nodup
    have hh := h.hd
    match hc : s.chain with
    | [] => rw [hc] at hh; simp at hh
    | [a] => rw [hc] at hall; simp [hall a (by simp)]
    | a :: b :: l =>
      rw [hc] at hall hn
      have h1 := hall a (by simp)
      have h2 := hall b (by simp)
      subst h1 h2
      simp at hn
  · intro e; simp [e]

theorem ev_spec {s s' : State} {a : Act} (h : Inv s) (hs : step s a = some s') :
    (∀ x, s'.ev = .item x → s'.popped = s.popped ++ [x]) ∧
    (s'.ev = .null true → s'.pushed = s'.popped) ∧
    (s'.ev = .null false → s'.pushed ≠ s'.popped ∧ s'.strong = false) := by
  have hd : ∀ (t : State) (n : Nat), t.head = s.head → t.popped = s.popped → 
      (∀ x, (t.deliver n).ev = .item x → (t.deliver n).popped = s.popped ++ [x]) ∧
      ((t.deliver n).ev = .null true → (t.deliver n).pushed = (t.deliver n).popped) ∧
      ((t.deliver n).ev = .null false → (t.deliver n).pushed ≠ (t.deliver n).popped ∧ (t.deliver n).strong = false) := by
    intro t n h1 h2
    simp only [State.deliver, h2]
    refine ⟨fun x hx => ?_, by simp, by simp⟩
    simp only [Event.item.injEq] at hx
    rw [hx]
  have hr : ∀ (t : State), t.pushed = s.pushed → t.popped = s.popped → s.chain ≠ [0] →
      (∀ x, t.retry.ev = .item x → t.retry.popped = s.popped ++ [x]) ∧
      (t.retry.ev = .null true → t.retry.pushed = t.retry.popped) ∧
      (t.retry.ev = .null false → t.retry.pushed ≠ t.retry.popped ∧ t.retry.strong = false) := by
    intro t h1 h2 h3
    unfold State.retry
    split
    · simp
    · rename_i hst
      refine ⟨by simp, by simp, fun _ => ⟨?_, by simpa using hst⟩⟩
      simp only [h1, h2]
      exact fun e => h3 ((log_empty h).mp e)
  cases a with
  | push t x =>
    unfold step at hs; simp only at hs
    split at hs
    · split at hs
      · simp only [Option.some.injEq] at hs; subst hs; simp
      · simp at hs
    · simp at hs
  | go t =>
    unfold step at hs; simp only at hs
    split at hs
    · rename_i pc ht
      cases pc <;> simp only [stepP, Option.some.injEq, reduceCtorEq] at hs <;> subst hs <;> simp
    · simp at hs
  | pop str =>
    unfold step at hs; simp only at hs
    split at hs
    · simp only [Option.some.injEq] at hs; subst hs; simp
    · simp at hs
  | scribble x v =>
    unfold step at hs; simp only at hs
    split at hs
    · simp only [Option.some.injEq] at hs; subst hs; simp
    · simp at hs
  | c =>
    have hs : stepC s s.cons = some s' := hs
    have con := h.con
    unfold CInv at con
    have hnz : s.head ≠ 0 → s.chain ≠ [0] := by
      intro hz e
      have := h.hd
      rw [e] at this
      simp only [List.head?_cons, Option.some.injEq] at this
      exact hz this.symm
    cases hcc : s.cons with
    | idle => rw [hcc] at hs; simp [stepC] at hs
    | load =>
      rw [hcc] at hs; simp only [stepC] at hs
      split at hs
      · split at hs <;> simp only [Option.some.injEq] at hs <;> subst hs <;> simp [State.touch]
      · split at hs <;> simp only [Option.some.injEq] at hs <;> subst hs
        · simp [State.touch]
        · exact hd _ _ rfl rfl
    | tailA =>
      simp only [hcc] at con
      rw [hcc] at hs; simp only [stepC] at hs
      split at hs <;> simp only [Option.some.injEq] at hs <;> subst hs
      · rename_i ht
        refine ⟨by simp, fun _ => ?_, by simp⟩
        refine (log_empty h).mpr ?_
        have h1 := h.hd; have h2 := h.tl; have h3 := h.nodup
        rw [ht, con] at h2; rw [con] at h1
        match hc : s.chain with
        | [] => rw [hc] at h1; simp at h1
        | [a] => rw [hc] at h1; simpa using h1
        | a :: b :: l =>
          rw [hc] at h1 h2 h3
          simp only [List.head?_cons, Option.some.injEq] at h1
          subst h1
          rw [List.getLast?_cons_cons] at h2
          exact absurd (List.mem_of_getLast? h2) (List.nodup_cons.mp h3).1
      · rename_i ht
        refine hr _ rfl rfl ?_
        intro e
        have h2 := h.tl
        rw [e] at h2
        simp only [List.getLast?_singleton, Option.some.injEq] at h2
        exact ht (by rw [con]; exact h2.symm)
    | load2 =>
      rw [hcc] at hs; simp only [stepC] at hs
      split at hs <;> simp only [Option.some.injEq] at hs <;> subst hs
      · simp [State.touch]
      · exact hd _ _ rfl rfl
    | tailB =>
      simp only [hcc] at con
      rw [hcc] at hs; simp only [stepC] at hs
      split at hs <;> simp only [Option.some.injEq] at hs <;> subst hs
      · simp
      · exact hr _ rfl rfl (hnz con)
    | pushReset | pushSwap | pushLink =>
      rw [hcc] at hs; simp only [stepC, Option.some.injEq] at hs; subst hs; simp
    | load3 =>
      simp only [hcc] at con
      rw [hcc] at hs; simp only [stepC] at hs
      split at hs <;> simp only [Option.some.injEq] at hs <;> subst hs
      · exact hr _ rfl rfl (hnz con)
      · exact hd _ _ rfl rfl

/-- C09. `Pop` returns null (and `PopWeak` reports empty) only at an instant at which everything pushed has been
popped, even while pushes are running; `PopWeak` returns null without reporting empty only if something is left;
a returned node is the one appended to the popped sequence. -/
theorem mpsc_reports (s : State) (h : Reachable Init step s) :
    (∀ x, s.ev = .item x → s.popped.getLast? = some x) ∧
    (s.ev = .null true → s.pushed = s.popped) ∧
    (s.ev = .null false → s.pushed ≠ s.popped ∧ s.strong = false) := by
  cases h with
  | init hi _ => obtain ⟨n, f, _, rfl⟩ := hi; simp
  | step hr hs _ =>
    obtain ⟨h1, h2⟩ := ev_spec (inv_reach hr) hs
    exact ⟨fun x hx => by rw [h1 x hx]; simp, h2⟩

theorem quiet_link {s : State} (h : Inv s) (hq : ∀ pc ∈ s.th, pc = .idle) (hc : ∀ a, s.cons ≠ .pushLink a) :
    ∀ a b, Adj s.chain a b → s.next a = some b := by
  intro a b hab
  rcases h.link a b hab with e | ⟨_, ⟨i, hi⟩ | ⟨e, _⟩⟩
  · exact e
  · have := hq _ (List.mem_of_getElem? hi); simp at this
  · exact absurd e (hc a)

/-- C09. With no push running, a pop (of either kind) finishes by itself: it returns the oldest node still queued,
or null (reporting empty) if there is none. -/
theorem mpsc_quiescent_pop (s : State) (h : Reachable Init step s) (hq : ∀ pc ∈ s.th, pc = .idle)
    (hc : s.cons = .idle) (strong : Bool) :
    ∃ k s', exec step s (.pop strong :: List.replicate k .c) = some s' ∧ s'.cons = .idle ∧
      ((s.pushed = s.popped ∧ s'.ev = .null true) ∨
       ∃ x rest, s.pushed = s.popped ++ x :: rest ∧ s'.ev = .item x) := by
  have hi := inv_reach h
  have hl := quiet_link hi hq (by simp [hc])
  have hlog := hi.log
  have hhd := hi.hd; have htl := hi.tl; have hnd := hi.nodup; have htn := hi.tlnext
  obtain ⟨next, head, tail, th, cons, str, client, pushed, popped, chain, ev, bad⟩ := s
  simp only at *
  subst hc
  match chain, hhd, htl, hnd, hlog, hl with
  | [], hhd, _, _, _, _ => simp at hhd
  | [a], hhd, htl, _, hlog, _ =>
    simp only [List.head?_cons, List.getLast?_singleton, Option.some.injEq] at hhd htl
    subst hhd; subst htl
    by_cases ha : a = 0
    · subst ha
      exact ⟨2, _, by simp [exec, step, stepC, List.replicate, htn, State.touch]; rfl, rfl, Or.inl ⟨by simpa using hlog, rfl⟩⟩
    · refine ⟨6, _, by simp [exec, step, stepC, List.replicate, htn, State.touch, ha, State.deliver]; rfl, rfl, Or.inr ⟨a, [], ?_, rfl⟩⟩
      simpa [ha] using hlog
  | a :: b :: l, hhd, htl, hnd, hlog, hl =>
    simp only [List.head?_cons, Option.some.injEq] at hhd
    subst hhd
    have hab := hl a b (Or.inl ⟨rfl, rfl⟩)
    by_cases ha : a = 0
    · subst ha
      have hb : b ≠ 0 := by rintro rfl; simp at hnd
      match l, htl, hl, hlog with
      | [], htl, _, hlog =>
        simp only [List.getLast?_cons_cons, List.getLast?_singleton, Option.some.injEq] at htl
        subst htl
        refine ⟨7, _, by simp [exec, step, stepC, List.replicate, hab, htn, State.touch, hb, State.deliver]; rfl, rfl,
          Or.inr ⟨b, [], ?_, rfl⟩⟩
        simpa [hb] using hlog
      | d :: l, _, hl, hlog =>
        have hbd := hl b d (Or.inr (Or.inl ⟨rfl, rfl⟩))
        refine ⟨2, _, by simp [exec, step, stepC, List.replicate, hab, hbd, State.touch, hb, State.deliver]; rfl, rfl,
          Or.inr ⟨b, (d :: l).filter (fun x => decide (x ≠ 0)), ?_, rfl⟩⟩
        rw [hlog]
        simp [hb]
    · refine ⟨1, _, by simp [exec, step, stepC, List.replicate, hab, State.touch, ha, State.deliver]; rfl, rfl,
          Or.inr ⟨a, (b :: l).filter (fun x => decide (x ≠ 0)), ?_, rfl⟩⟩
      rw [hlog]
      simp [ha]

/-- C09. `Empty` with no push and no pop running. -/
theorem mpsc_empty_quiescent (s : State) (h : Reachable Init step s) (hq : ∀ pc ∈ s.th, pc = .idle)
    (hc : s.cons = .idle) : isEmpty s = true ↔ s.pushed = s.popped := by
  have hi := inv_reach h
  have hl := quiet_link hi hq (by simp [hc])
  rw [log_empty hi]
  have hhd := hi.hd; have htl := hi.tl; have htn := hi.tlnext
  simp only [isEmpty, Bool.and_eq_true, decide_eq_true_eq, Option.isNone_iff_eq_none]
  constructor
  · rintro ⟨h1, h2⟩
    match hcn : s.chain with
    | [] => rw [hcn] at hhd; simp at hhd
    | [a] => rw [hcn] at hhd; simp only [List.head?_cons, Option.some.injEq] at hhd; rw [hhd, h1]
    | a :: b :: l =>
      rw [hcn] at hhd hl
      simp only [List.head?_cons, Option.some.injEq] at hhd
      have := hl a b (Or.inl ⟨rfl, rfl⟩)
      rw [hhd, h2] at this; simp at this
  · intro e
    rw [e] at hhd htl
    simp only [List.head?_cons, List.getLast?_singleton, Option.some.injEq] at hhd htl
    exact ⟨hhd.symm, by rw [← hhd, htl]; exact htn⟩

/-- `Empty` may answer true although a complete push is queued behind an unfinished one. -/
theorem mpsc_empty_may_miss_completed_push :
    ∃ s, Reachable Init step s ∧ isEmpty s = true ∧ s.pushed = [1, 2] ∧ s.popped = [] ∧ s.th[1]? = some .idle :=
  ⟨_, Reachable.exec (s := { th := [.idle, .idle] }) (.init ⟨2, fun _ => none, rfl, rfl⟩ trivial)
    [.push 0 1, .go 0, .go 0, .push 1 2, .go 1, .go 1, .go 1] (by rfl), by decide, rfl, rfl, rfl⟩

/-! A concrete interleaving: two producers overlap; nodes 1 and 2 come out in exchange order; node 2 is pushed
again after it was popped and its link was overwritten. -/
example : ∃ s, Reachable Init step s ∧ s.pushed = [2, 1, 2] ∧ s.popped = [2, 1] ∧ s.ev = .item 1 :=
  ⟨_, Reachable.exec (s := { th := [.idle, .idle] }) (.init ⟨2, fun _ => none, rfl, rfl⟩ trivial)
    [.push 0 1, .go 0, .push 1 2, .go 1, .go 1, .go 0, .pop false, .c, .c, .go 1, .go 0, .pop true, .c, .c,
     .scribble 2 (some 5), .push 1 2, .go 1, .pop true, .c, .c, .c, .go 1, .c, .go 1, .c, .c] (by rfl), rfl, rfl, rfl⟩
example : ∃ s, Reachable Init step s ∧ s.pushed = [1] ∧ s.popped = [] ∧ s.ev = .null false :=
  ⟨_, Reachable.exec (s := { th := [.idle, .idle] }) (.init ⟨2, fun _ => none, rfl, rfl⟩ trivial)
    [.push 0 1, .go 0, .go 0, .pop false, .c, .c] (by rfl), rfl, rfl, rfl⟩

end Verif.Mpsc
