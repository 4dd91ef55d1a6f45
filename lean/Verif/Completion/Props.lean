import Verif.Completion.Lemmas

/-!
# C30: completions reach exactly the callback that was armed

`Common.run U.step (U.init n) acts` is any history of submissions and completions on a ring with `n`
entries; callbacks may submit while they run. `Common.run E.step (E.init n) acts` is any history of
`Arm`, `Disarm`, `epoll_wait` and dispatched events.
-/
namespace Verif.Completion

/-- Is this the final completion of submission `op`? -/
def isFinal (op : Nat) : UObs → Bool
  | .called o _ m _ => decide (o = op) && !m
  | _ => false

theorem urun (acts : List UAct) : ∀ (u : U), UInv u → ∃ os u', Common.run U.step u acts = some (os, u') ∧
    UInv u' ∧ u.cnt ≤ u'.cnt ∧ (∀ op c m mv, UObs.called op c m mv ∈ os → op = c ∧ (m = false → mv = false)) ∧
    (∀ op, op < u'.cnt → (os.filter (isFinal op)).length + (if op ∈ u'.live.map (·.1) then 1 else 0) =
      if op ∈ u.live.map (·.1) ∨ u.cnt ≤ op then 1 else 0) := by
  induction acts with
  | nil =>
    intro u h
    refine ⟨[], u, rfl, h, Nat.le_refl _, by simp, ?_⟩
    intro op hop
    have : ¬ u.cnt ≤ op := by omega
    simp only [List.filter_nil, List.length_nil, Nat.zero_add, this, or_false]
  | cons a acts ih =>
    intro u h
    obtain ⟨ob, u1, e1, h1, a1, a2, a3, a4⟩ := ustep h a
    obtain ⟨os, u2, e2, h2, b1, b2, b3⟩ := ih u1 h1
    refine ⟨ob :: os, u2, by simp only [Common.run, e1, e2], h2, by omega, ?_, ?_⟩
    · intro op c m mv hm
      rcases List.mem_cons.1 hm with hm | hm
      · have := a1 op c m mv hm.symm
        exact ⟨this.1, this.2.2⟩
      · exact b2 op c m mv hm
    · intro op hop
      have b := b3 op hop
      by_cases hlt : op < u1.cnt
      · have a5 := a4 op hlt
        have hnc : ¬ u1.cnt ≤ op := by omega
        rw [List.filter_cons]
        cases hf : isFinal op ob with
        | false =>
          have hno : ∀ c mv, ob ≠ .called op c false mv := by
            intro c mv e
            rw [e] at hf
            simp [isFinal] at hf
          simp only [hnc, or_false] at b
          simp only [Bool.false_eq_true, if_false]
          rw [b]
          by_cases hm : op ∈ u1.live.map (·.1)
          · rw [if_pos hm, if_pos (a5.1 hm).1]
          · rw [if_neg hm, if_neg (fun h => hm (a5.2 ⟨h, hno⟩))]
        | true =>
          have hyes : ∃ c mv, ob = .called op c false mv := by
            cases ob with
            | called o c m mv =>
              simp only [isFinal, Bool.and_eq_true, decide_eq_true_eq, Bool.not_eq_true'] at hf
              obtain ⟨rfl, rfl⟩ := hf
              exact ⟨c, mv, rfl⟩
            | submitted o i => cases hf
            | nothing => cases hf
          obtain ⟨c, mv, hob⟩ := hyes
          have hnl : op ∉ u1.live.map (·.1) := fun hm => (a5.1 hm).2 c mv hob
          have hl : op ∈ u.live.map (·.1) := (a1 op c false mv hob).2.1
          simp only [hnc, or_false, hnl, if_false] at b
          simp only [if_true, List.length_cons, hl, true_or]
          omega
      · have hnf : isFinal op ob = false := by
          cases hf : isFinal op ob with
          | false => rfl
          | true =>
            cases ob with
            | called o c m mv =>
              simp only [isFinal, Bool.and_eq_true, decide_eq_true_eq, Bool.not_eq_true'] at hf
              obtain ⟨rfl, rfl⟩ := hf
              have := (a1 o c false mv rfl).2.1
              obtain ⟨p, hp, rfl⟩ := List.mem_map.1 this
              have := h.old p hp
              omega
            | submitted o i => cases hf
            | nothing => cases hf
        rw [List.filter_cons, hnf]
        simp only [Bool.false_eq_true, if_false]
        rw [b, if_pos (Or.inr (by omega)), if_pos (Or.inr (by omega))]

/-- **C30** (io_uring) No history is undefined, and every completion calls the callback of the
submission it belongs to. -/
theorem C30_uring_right_callback (n : Nat) (hn : 0 < n) (acts : List UAct) :
    ∃ os u, Common.run U.step (U.init n) acts = some (os, u) ∧
      ∀ op c m mv, UObs.called op c m mv ∈ os → c = op := by
  obtain ⟨os, u, h1, _, _, h2, _⟩ := urun acts _ (uinit hn)
  exact ⟨os, u, h1, fun op c m mv h => (h2 op c m mv h).1.symm⟩

/-- **C30** (io_uring) A submission's callback is called with the final completion exactly once, or
the submission is still in flight; never both, never twice. -/
theorem C30_uring_once (n : Nat) (hn : 0 < n) (acts : List UAct) (os : List UObs) (u : U)
    (h : Common.run U.step (U.init n) acts = some (os, u)) (op : Nat) (hop : op < u.cnt) :
    (os.filter (isFinal op)).length = if op ∈ u.live.map (·.1) then 0 else 1 := by
  obtain ⟨os', u', h1, _, _, _, h3⟩ := urun acts _ (uinit hn)
  rw [h] at h1
  cases h1
  have := h3 op hop
  simp only [U.init, List.map_nil, List.not_mem_nil, Nat.zero_le, or_true, if_true] at this
  split <;> rename_i hl
  · rw [if_pos hl] at this; omega
  · rw [if_neg hl] at this; omega

/-- **C30** (io_uring) Two submissions in flight never share their user data, each one's callback is
kept in the table until its final completion, and `pending_cb_cnt_` counts them. -/
theorem C30_uring_kept (n : Nat) (hn : 0 < n) (acts : List UAct) (os : List UObs) (u : U)
    (h : Common.run U.step (U.init n) acts = some (os, u)) :
    (∀ op op' i, (op, i) ∈ u.live → (op', i) ∈ u.live → op = op') ∧
    (∀ op i, (op, i) ∈ u.live → u.tab.cb i = some op) ∧
    (∀ i c, u.tab.cb i = some c → (c, i) ∈ u.live) ∧
    u.pending = u.live.length := by
  obtain ⟨os', u', h1, hi, _, _, _⟩ := urun acts _ (uinit hn)
  rw [h] at h1
  cases h1
  refine ⟨?_, fun op i h => (hi.live op i).1 h, fun i c h => (hi.live c i).2 h, hi.pend⟩
  intro op op' i h2 h3
  have h4 := (hi.live op i).1 h2
  have h5 := (hi.live op' i).1 h3
  rw [h4] at h5
  cases h5; rfl

/-- **C30** (io_uring) A one-shot callback is never moved while it runs. A multishot callback can be:
it is called in place, and if it submits when the table is full the table is reallocated under the
running function object. -/
theorem C30_uring_multishot_moved :
    (∀ (n : Nat) (_ : 0 < n) (acts : List UAct) (os : List UObs) (u : U),
      Common.run U.step (U.init n) acts = some (os, u) →
      ∀ op c mv, UObs.called op c false mv ∈ os → mv = false) ∧
    (Common.run U.step (U.init 1) [.submit, .complete 0 true 1]).map (·.1) =
      some [.submitted 0 0, .called 0 0 true true] := by
  refine ⟨?_, by decide +kernel⟩
  intro n hn acts os u h op c mv hm
  obtain ⟨os', u', h1, _, _, h2, _⟩ := urun acts _ (uinit hn)
  rw [h] at h1
  cases h1
  exact (h2 op c false mv hm).2 rfl

theorem erun (acts : List EAct) : ∀ (e : E), EInv e → ∃ os e', Common.run E.step e acts = some (os, e') ∧
    EInv e' := by
  induction acts with
  | nil => intro e h; exact ⟨[], e, rfl, h⟩
  | cons a acts ih =>
    intro e h
    obtain ⟨ob, e1, s1, h1, _⟩ := estep h a
    obtain ⟨os, e2, s2, h2⟩ := ih e1 h1
    exact ⟨ob :: os, e2, by simp only [Common.run, s1, s2], h2⟩

/-- **C30** (epoll) No history is undefined, and an event of a registration that is still armed when
it is dispatched calls exactly that registration's callback. -/
theorem C30_epoll_armed (n : Nat) (hn : 0 < n) (acts : List EAct) :
    ∃ os e, Common.run E.step (E.init n) acts = some (os, e) ∧
      ∀ a c e', e.step .dispatch = some (.called a c, e') → a ∈ e.armed.map (·.1) → c = some a := by
  obtain ⟨os, e, h1, hi⟩ := erun acts _ (einit hn)
  refine ⟨os, e, h1, ?_⟩
  intro a c e' hs ha
  obtain ⟨ob, e2, h2, _, h3⟩ := estep hi .dispatch
  rw [hs] at h2
  cases h2
  obtain ⟨i, rest, hb, rfl⟩ := h3 a c rfl
  obtain ⟨p, hp, rfl⟩ := List.mem_map.1 ha
  have := hi.bslot (p.1, i) (by rw [hb]; exact List.mem_cons_self ..) p.2 hp
  simp only at this
  subst this
  exact (hi.armed p.1 p.2).1 hp

/-- **C30** (epoll, partial) An event calls the callback of its own registration, or none, or one
registered after `epoll_wait` returned the event (`e.fetched` is the number of registrations at
that moment). Missing: the last case, which does happen (`C30_epoll_wrong_callback`). -/
theorem C30_epoll_callback_partial (n : Nat) (hn : 0 < n) (acts : List EAct) (os : List EObs) (e : E)
    (h : Common.run E.step (E.init n) acts = some (os, e)) (a b : Nat) (e' : E)
    (hs : e.step .dispatch = some (.called a (some b), e')) :
    (b = a ∧ a ∈ e.armed.map (·.1)) ∨ (e.fetched ≤ b ∧ b ∈ e.armed.map (·.1)) := by
  obtain ⟨os', e1, h1, hi⟩ := erun acts _ (einit hn)
  rw [h] at h1
  cases h1
  obtain ⟨ob, e2, h2, _, h3⟩ := estep hi .dispatch
  rw [hs] at h2
  cases h2
  obtain ⟨i, rest, hb, hc⟩ := h3 a (some b) rfl
  have hm : b ∈ e.armed.map (·.1) := List.mem_map.2 ⟨(b, i), (hi.armed b i).2 hc.symm, rfl⟩
  rcases hi.bcb (a, i) (by rw [hb]; exact List.mem_cons_self ..) b hc.symm with h4 | h4
  · left; simp only at h4; subst h4; exact ⟨rfl, hm⟩
  · exact Or.inr ⟨h4, hm⟩

/-- **C30** (epoll, partial) If no `Arm` happened since `epoll_wait`, an event calls the callback of its
own registration exactly if that is still armed, and otherwise none. -/
theorem C30_epoll_exact_partial (n : Nat) (hn : 0 < n) (acts : List EAct) (os : List EObs) (e : E)
    (h : Common.run E.step (E.init n) acts = some (os, e)) (hno : e.cnt = e.fetched) (a : Nat)
    (c : Option Nat) (e' : E) (hs : e.step .dispatch = some (.called a c, e')) :
    c = if a ∈ e.armed.map (·.1) then some a else none := by
  obtain ⟨os', e1, h1, hi⟩ := erun acts _ (einit hn)
  rw [h] at h1
  cases h1
  by_cases ha : a ∈ e.armed.map (·.1)
  · obtain ⟨os'', e3, h4, h5⟩ := C30_epoll_armed n hn acts
    rw [h] at h4
    cases h4
    rw [if_pos ha]
    exact h5 a c e' hs ha
  · rw [if_neg ha]
    cases c with
    | none => rfl
    | some b =>
      rcases C30_epoll_callback_partial n hn acts os e h a b e' hs with ⟨h6, h7⟩ | ⟨h6, h7⟩
      · exact absurd h7 ha
      · obtain ⟨p, hp, rfl⟩ := List.mem_map.1 h7
        have := hi.old p hp
        omega

/-- **C30** (epoll, refuted) While a batch of two events is dispatched, the first callback disarms the
second registration and arms a new one, which reuses its entry: the second event calls the new
callback, which was never registered for it. -/
theorem C30_epoll_wrong_callback (n : Nat) (hn : n = 512) :
    (Common.run E.step (E.init n) [.arm, .arm, .fetch [0, 1], .dispatch, .disarm 1, .arm, .dispatch]).map
      (·.1) = some [.armed 0 0, .armed 1 1, .nothing, .called 0 (some 0), .nothing, .armed 2 1,
        .called 1 (some 2)] := by
  subst hn
  decide +kernel

/-- A ring of one entry that grows, reuses an entry and completes out of order. -/
example : (Common.run U.step (U.init 1) [.submit, .submit, .submit, .complete 1 false 0, .submit,
    .complete 0 false 2, .complete 0 true 0]).map (·.1) =
    some [.submitted 0 0, .submitted 1 1, .submitted 2 2, .called 1 1 false false, .submitted 3 1,
      .called 0 0 false false, .called 2 2 true false] := by decide +kernel

end Verif.Completion
