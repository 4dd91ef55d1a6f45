import Verif.UPoll.Free
import Verif.UPoll.Spec
/-! # Theorems about polls on the io_uring proactor -/
namespace Verif.UPoll
open Verif.Common

theorem pairwise_not_before {l : List Ev} {P : Ev → Ev → Prop} (h : l.Pairwise P) {a b : Ev} (hn : ¬ P a b) : ¬ Before l a b := by
  rintro ⟨l1, l2, l3, rfl⟩
  rw [List.pairwise_append] at h
  have h2 := h.2.1
  rw [List.pairwise_cons] at h2
  exact hn (h2.1 b (by simp))

theorem lost_of_before {l : List Ev} {e : Nat} (h : Lost l e) : Ev.kfail e ∈ l ∨ Before l (.delStart e) (.rearm e) := by
  rcases h with h | ⟨a, b, rfl, h⟩
  · exact .inl h
  · obtain ⟨a1, a2, rfl⟩ := List.append_of_mem h
    exact .inr ⟨a1, a2, b, by simp⟩

/-- States for examples. -/
theorem reach_of {acts : List Act} {P : S → Bool} (h : ((exec step S.init acts).map P) = some true) :
    ∃ s, Reachable Init step s ∧ P s = true := by
  cases he : exec step S.init acts with
  | none => rw [he] at h; cases h
  | some s =>
    rw [he] at h
    simp only [Option.map_some, Option.some.injEq] at h
    exact ⟨s, Reachable.exec (.init rfl trivial) acts he, h⟩

/-! ## C62: error callbacks -/

/-- **C62** A callback is called at most once. -/
theorem C62_once {s : S} (h : Reachable Init step s) (w m m' : Nat) : ¬ Before s.log (.called w m) (.called w m') :=
  pairwise_not_before (Inv.reachable h).W.l4 fun hr => (hr.1 w m' rfl).2.2 m rfl

/-- **C62** After `CancelOnErrorCb` was called, the callback is not called, also while the call waits; nor after `Close`. -/
theorem C62_not_after_cancel {s : S} (h : Reachable Init step s) (w m : Nat) :
    ¬ Before s.log (.cancelStart w) (.called w m) ∧ ¬ Before s.log (.closed w) (.called w m) :=
  ⟨pairwise_not_before (Inv.reachable h).W.l4 fun hr => (hr.1 w m rfl).1 rfl,
   pairwise_not_before (Inv.reachable h).W.l4 fun hr => (hr.1 w m rfl).2.1 rfl⟩

/-- **C62** The callback is called only with events that the kernel reported on its own poll. -/
theorem C62_reported {s : S} (h : Reachable Init step s) {w m : Nat} (hm : Ev.called w m ∈ s.log) :
    ∃ r, PollsFor s r w ∧ Ev.kev r m ∈ s.log := by
  have hW := (Inv.reachable h).W
  obtain ⟨x, q, hx, hq, _, hk⟩ := hW.l1 w m hm
  obtain ⟨q', hq', hk', _⟩ := hW.w1 w x hx
  exact ⟨x.rid, ⟨q', hq', hk'⟩, hk⟩

/-- **C62** If the kernel reports an event on the poll of the callback that is registered with a socket, processing the
report calls the callback with this event. -/
theorem C62_delivered {s : S} (h : Reachable Init step s) {sock w m k : Nat} {c : Cqe} {rest : List Cqe}
    (hs : s.socks sock = some w) (hc : s.cq = c :: rest) (hr : PollsFor s c.rid w) (hm : c.res = .ev m) :
    ∃ s2 evs, step s (.complete k) = some s2 ∧ s2.log = s.log ++ evs ++ [Ev.called w m] := by
  have I := Inv.reachable h
  obtain ⟨q, hq, hk⟩ := hr
  have hcm : c ∈ s.cq := by rw [hc]; exact List.mem_cons_self
  obtain ⟨q', d1, d2, d3, d4, d5, d6⟩ := I.R.dispatch hcm
  rw [hq] at d2; cases d2
  obtain ⟨x, hx, hsock, hheld⟩ := I.W.w3 _ _ hs
  obtain ⟨x', hx', hxr⟩ := I.W.w4 _ _ _ hq hk
  rw [hx] at hx'; cases hx'
  obtain ⟨q0, e0, _, _, _, h2, h3⟩ := I.W.w1 w x hx
  rw [hxr, hq] at e0; cases e0
  have hrf : x.ref ≠ 0 := by rw [h2, if_neg d4]; omega
  have hcb : x.cb = true := by rw [h3, hheld]; simp [d4]
  have hmore := I.T.t0 c hcm q w hq hk
  obtain ⟨f1, _, _, f4, _⟩ := popped_rest (s := s) (c := c) (rest := rest)
  have e : s.complete k = some ((s.popped c rest).runErr w c.res) := by
    unfold S.complete
    simp only [hc, d1, hq, hk, hmore, Bool.false_eq_true, if_false, S.popped]
  refine ⟨_, if x.ref = 1 then [Ev.freedW w] else [], e, ?_⟩
  rw [runErr_eq (s := s.popped c rest) (by rw [f1]; exact hx) hrf, hm, hcb, f4]
  simp [callEv]

/-- **C62** No wrapper is used after it was freed, none is freed twice, and completions reach a callback that exists. -/
theorem C62_memory_safe {s : S} (h : Reachable Init step s) :
    s.badW = false ∧ s.badSlot = false ∧ ∀ w, ¬ Before s.log (.freedW w) (.freedW w) :=
  ⟨(Inv.reachable h).W.bw, (Inv.reachable h).W.bs, fun w =>
    pairwise_not_before (Inv.reachable h).W.l4 fun hr => hr.2 w rfl rfl⟩

/-- **C62** No wrapper is leaked: when no socket refers to it and its poll is over, it was freed. -/
theorem C62_freed {s : S} (h : Reachable Init step s) {w r : Nat} (hr : PollsFor s r w) (hs : ∀ sock, s.socks sock ≠ some w)
    (hp : ¬ Pending s r) : Ev.freedW w ∈ s.log := by
  have I := Inv.reachable h
  obtain ⟨q, hq, hk⟩ := hr
  obtain ⟨x, hx, rfl⟩ := I.W.w4 _ _ _ hq hk
  obtain ⟨q0, e0, _, _, _, h2, _⟩ := I.W.w1 w x hx
  rw [hq] at e0; cases e0
  have hg : q.stage = .gone := Classical.byContradiction fun hg => hp ⟨q, hq, hg⟩
  have hh : x.held = false := by
    cases hh : x.held with
    | false => rfl
    | true => exact absurd (I.W.w2 w x hx hh) (hs _)
  exact FInv.reachable h w x hx (by rw [h2, hh, if_pos hg]; rfl)

/-- **C62** Cancelling removes no other request of the proactor: what the kernel finds is the poll of this callback,
although positions of the table are used again. -/
theorem C62_cancel_own {s s2 : S} (h : Reachable Init step s) {r w : Nat} (hw : RemovesErr s w)
    (e : step s (.removeHit r) = some s2) : PollsFor s r w := by
  have I := Inv.reachable h
  obtain ⟨p, rest, q, t, hsq, hq, hk⟩ := hw
  have hst := (I.R.take hsq hq).1
  unfold step S.step at e
  simp only at e
  split at e
  · cases e
  · rename_i p' q' t' s1 ht
    obtain ⟨rest', hs', hq', hk', h3⟩ := takeRemove_some ht
    rw [hsq] at hs'; cases hs'
    rw [hq] at hq'; cases hq'
    have htt : t' = t := by
      rcases hk' with ⟨w', hk'⟩ | ⟨w', hk'⟩ <;> rw [hk] at hk' <;> cases hk'
      rfl
    subst htt
    split at e
    · rename_i hwt
      obtain ⟨q1, h4, h5, h6⟩ := waitingB_iff.1 hwt
      obtain ⟨x, hx, h0, _, h7⟩ := I.W.w5 p q w t' hq hk
      have hlt : r < p := I.R.q3 p (by rw [hsq]; simp) r q1 h4 (by rw [h5]; simp)
      rcases h7 r q1 hlt h4 (by rw [h6]) with h8 | h8
      · subst h8
        obtain ⟨q2, hq2, hk2, _⟩ := I.W.w1 w x hx
        exact ⟨q2, hq2, hk2⟩
      · rw [h5] at h8; cases h8
    · cases e

/-- **C62** A callback that was called stays registered: until `CancelOnErrorCb`, registering another one fails a CHECK. -/
theorem C62_stays_registered : ∃ s, Reachable Init step s ∧ Ev.called 0 8 ∈ s.log ∧ ∀ k, step s (.reg 0 k) = none := by
  obtain ⟨s, hr, hp⟩ := reach_of (acts := [.reg 0 0, .submit, .event 0 8 false, .complete 0])
    (P := fun s => decide (Ev.called 0 8 ∈ s.log ∧ s.socks 0 = some 0)) (by decide)
  have hp := of_decide_eq_true hp
  refine ⟨s, hr, hp.1, fun k => ?_⟩
  show s.reg 0 k = none
  unfold S.reg
  rw [if_neg]
  intro h; rw [hp.2] at h; cases h.1

/-! ## C63: epoll entries -/

/-- **C63** After `EpollDel` returned, the callback of the entry is not called -- provided the kernel neither failed the poll
nor ended it with an event while `EpollDel` was waiting (then it is armed again). Without this the claim is false:
`C63_late_event`. -/
theorem C63_no_event_after_del_partial {s : S} (h : Reachable Init step s) {e m : Nat} (hk : Ev.kfail e ∉ s.log)
    (hr : ¬ Before s.log (.delStart e) (.rearm e)) : ¬ Before s.log (.delEnd e) (.event e m) := by
  have hl : ¬ Lost s.log e := fun h => (lost_of_before h).elim hk hr
  exact pairwise_not_before ((Inv.reachable h).E.e9 e hl) fun hp => hp rfl m rfl

/-- **C63** The callback is called only with events that the kernel reported on a poll of this entry. -/
theorem C63_reported {s : S} (h : Reachable Init step s) {e m : Nat} (hm : Ev.event e m ∈ s.log) :
    ∃ r, PollsEntry s r e ∧ Ev.kev r m ∈ s.log := by
  obtain ⟨r, q, hq, hk, h1⟩ := (Inv.reachable h).E.e11 e m hm
  exact ⟨r, ⟨q, hq, hk⟩, h1⟩

/-- **C63** Every event that the kernel reports on a poll of the entry calls the callback with this event. -/
theorem C63_delivered {s : S} (h : Reachable Init step s) {e m k : Nat} {c : Cqe} {rest : List Cqe} (hc : s.cq = c :: rest)
    (hr : PollsEntry s c.rid e) (hm : c.res = .ev m) (hk : s.slots k = none) :
    ∃ s2 evs, step s (.complete k) = some s2 ∧ s2.log = s.log ++ [Ev.event e m] ++ evs ∧ ∀ ev ∈ evs, ev = .rearm e := by
  have I := Inv.reachable h
  obtain ⟨q, hq, hke⟩ := hr
  have hcm : c ∈ s.cq := by rw [hc]; exact List.mem_cons_self
  obtain ⟨q', d1, d2, d3, d4, d5, d6⟩ := I.R.dispatch hcm
  rw [hq] at d2; cases d2
  obtain ⟨x, hx, hxr⟩ := I.E.e2 _ q e hq hke
  have hxr := hxr.resolve_right d4
  have hf : x.freed = false := by
    obtain ⟨q1, hq1, _, _, h1⟩ := I.E.e1 e x hx
    rw [hxr, hq] at hq1; cases hq1
    cases hf : x.freed with
    | false => rfl
    | true => exact absurd (h1.1 hf) d4
  obtain ⟨f1, f2, _, f4, _⟩ := popped_rest (s := s) (c := c) (rest := rest)
  have e0 : s.complete k = (s.popped c rest).runEnt e c k := by
    unfold S.complete
    simp only [hc, d1, hq, hke, S.popped]
  show ∃ s2 evs, s.complete k = some s2 ∧ _
  rw [e0]
  unfold S.runEnt
  simp only [f2, hx, hf, Bool.false_eq_true, if_false, hm]
  cases hmore : c.more with
  | true =>
    refine ⟨_, [], rfl, ?_, by simp⟩
    simp [S.emit, f4]
  | false =>
    have hk' : ((s.popped c rest).emit (.event e m)).slots k = none := by
      show (s.popped c rest).slots k = none
      unfold S.popped
      rw [hmore]
      show upd s.slots c.ud.1 none k = none
      by_cases hkk : k = c.ud.1
      · rw [hkk]; exact upd_same _ _ _
      · rw [upd_ne _ _ hkk]; exact hk
    have hk'' : (s.popped c rest).slots k = none := hk'
    refine ⟨((s.popped c rest).emit (.event e m)).rearm e k x, [.rearm e], ?_, ?_, by simp⟩
    · simp [hk'']
    · show ((s.popped c rest).log ++ [_]) ++ [_] = _
      rw [f4]

/-- **C63** As long as an entry was not deleted, exactly one of its polls is under way: none is lost when the kernel ends a
multishot poll, and none is doubled. -/
theorem C63_one_poll {s : S} (h : Reachable Init step s) {e : Nat} {x : E} (hx : s.es[e]? = some x) (hf : x.freed = false) :
    (∃ r, PollsEntry s r e ∧ Pending s r) ∧
    ∀ r r', PollsEntry s r e → PollsEntry s r' e → Pending s r → Pending s r' → r = r' := by
  have E := (Inv.reachable h).E
  constructor
  · obtain ⟨q, hq, hk, _, h1⟩ := E.e1 e x hx
    refine ⟨x.rid, ⟨q, hq, hk⟩, q, hq, fun hg => ?_⟩
    have := h1.2 hg
    rw [hf] at this; cases this
  · have key : ∀ r, PollsEntry s r e → Pending s r → x.rid = r := by
      rintro r ⟨q, hq, hk⟩ ⟨q', hq', hg⟩
      rw [hq] at hq'; cases hq'
      obtain ⟨y, hy, h1⟩ := E.e2 r q e hq hk
      rw [hx] at hy; cases hy
      exact h1.resolve_right hg
    intro r r' h1 h2 h3 h4
    rw [← key r h1 h3, ← key r' h2 h4]

/-- **C63** An entry is deleted at most once, and its callback is not called after that. -/
theorem C63_freed_once {s : S} (h : Reachable Init step s) (e m : Nat) :
    ¬ Before s.log (.freedE e) (.freedE e) ∧ ¬ Before s.log (.freedE e) (.event e m) :=
  ⟨pairwise_not_before (Inv.reachable h).E.e12 fun hr => hr.2 e rfl rfl,
   pairwise_not_before (Inv.reachable h).E.e12 fun hr => hr.1 e m rfl rfl⟩

/-- **C63** An entry is not used after it was deleted -- provided the kernel failed no poll of an entry. Without this the
claim is false: `C63_use_after_free`. -/
theorem C63_memory_safe_partial {s : S} (h : Reachable Init step s) (hk : ∀ e, Ev.kfail e ∉ s.log) :
    s.badE = false ∧ s.badSlot = false := by
  have I := Inv.reachable h
  refine ⟨?_, I.W.bs⟩
  cases hb : s.badE with
  | false => rfl
  | true =>
    obtain ⟨e, h1⟩ := I.E.e10 hb
    exact absurd h1 (hk e)

/-- **C63** `EpollDel` removes no other request of the proactor. -/
theorem C63_del_own {s s2 : S} (h : Reachable Init step s) {r e : Nat} (hw : RemovesEntry s e)
    (e2 : step s (.removeHit r) = some s2) : PollsEntry s r e := by
  have I := Inv.reachable h
  obtain ⟨p, rest, q, t, hsq, hq, hk⟩ := hw
  unfold step S.step at e2
  simp only at e2
  split at e2
  · cases e2
  · rename_i p' q' t' s1 ht
    obtain ⟨rest', hs', hq', hk', h3⟩ := takeRemove_some ht
    rw [hsq] at hs'; cases hs'
    rw [hq] at hq'; cases hq'
    have htt : t' = t := by
      rcases hk' with ⟨w', hk'⟩ | ⟨w', hk'⟩ <;> rw [hk] at hk' <;> cases hk'
      rfl
    subst htt
    split at e2
    · rename_i hwt
      obtain ⟨q1, h4, h5, h6⟩ := waitingB_iff.1 hwt
      exact ⟨q1, h4, (EInv.target I.T (I.E.e6 p q e t' hq hk) h4 h6).1⟩
    · cases e2

/-- **C63** An event that ends the multishot poll while `EpollDel` waits arms the poll again with new user data: `EpollDel`
returns (it found nothing), and afterwards the callback is called. -/
theorem C63_late_event : ∃ s, Reachable Init step s ∧ Before s.log (.delEnd 0) (.event 0 4) ∧ s.badE = false ∧ Ev.kfail 0 ∉ s.log := by
  obtain ⟨s, hr, hp⟩ := reach_of
    (acts := [.add 0, .submit, .event 0 1 false, .del 0 1, .complete 2, .removeMiss, .complete 0, .submit, .event 2 4 true, .complete 0])
    (P := fun s => decide (s.log = [.add 0, .kev 0 1, .delStart 0, .event 0 1, .rearm 0, .delEnd 0, .kev 2 4, .event 0 4] ∧
      s.badE = false)) (by decide)
  have hp := of_decide_eq_true hp
  refine ⟨s, hr, ?_, hp.2, by rw [hp.1]; decide⟩
  rw [hp.1]
  exact ⟨[.add 0, .kev 0 1, .delStart 0, .event 0 1, .rearm 0], [.kev 2 4], [], rfl⟩

/-- **C63** When the kernel fails the poll of an entry, the entry is deleted, and the owner's `EpollDel` uses freed memory. -/
theorem C63_use_after_free : ∃ s, Reachable Init step s ∧ s.badE = true := by
  obtain ⟨s, hr, hp⟩ := reach_of (acts := [.add 0, .submit, .fail 0, .complete 0, .del 0 0])
    (P := fun s => s.badE) (by decide)
  exact ⟨s, hr, hp⟩

/-! ## The hypotheses are met -/

/-- A callback is called, and then cancelled; another one is cancelled while it waits in the kernel, and freed. -/
example : ∃ s, Reachable Init step s ∧ Before s.log (.called 0 8) (.cancelStart 0) ∧ Ev.freedW 1 ∈ s.log := by
  obtain ⟨s, hr, hp⟩ := reach_of
    (acts := [.reg 0 0, .reg 1 1, .submit, .submit, .event 0 8 false, .complete 0, .cancel 0 0, .cancel 1 0, .removeHit 1, .die 1,
      .complete 0, .complete 0])
    (P := fun s => decide (s.log = [.reg 0 0, .reg 1 1, .kev 0 8, .called 0 8, .cancelStart 0, .freedW 0, .cancelStart 1,
      .cancelEnd 1, .freedW 1])) (by decide)
  have hp := of_decide_eq_true hp
  refine ⟨s, hr, ?_, by rw [hp]; decide⟩
  rw [hp]
  exact ⟨[.reg 0 0, .reg 1 1, .kev 0 8], [], _, rfl⟩

/-- A removal finds the poll of its callback. -/
example : ∃ s, Reachable Init step s ∧ RemovesErr s 0 ∧ (step s (.removeHit 0)).isSome = true := by
  obtain ⟨s, hr, hp⟩ := reach_of (acts := [.reg 0 0, .submit, .cancel 0 1])
    (P := fun s => decide (s.sq = [1] ∧ s.reqs[1]? = some (R.mk (1, 0) (.rmErr 0 (0, 0)) .queued)) && (step s (.removeHit 0)).isSome) (by decide)
  simp only [Bool.and_eq_true, decide_eq_true_eq] at hp
  exact ⟨s, hr, ⟨1, [], _, _, hp.1.1, hp.1.2, rfl⟩, hp.2⟩

/-- A registered callback with a report at the head of the queue. -/
example : ∃ s c, Reachable Init step s ∧ s.socks 0 = some 0 ∧ s.cq = [c] ∧ PollsFor s c.rid 0 ∧ c.res = .ev 8 := by
  obtain ⟨s, hr, hp⟩ := reach_of (acts := [.reg 0 0, .submit, .event 0 8 false])
    (P := fun s => decide (s.socks 0 = some 0 ∧ s.cq = [⟨0, (0, 0), .ev 8, false⟩] ∧ s.reqs[0]? = some (R.mk (0, 0) (.err 0) .done))) (by decide)
  have hp := of_decide_eq_true hp
  exact ⟨s, _, hr, hp.1, hp.2.1, ⟨_, hp.2.2, rfl⟩, rfl⟩

/-- An entry reports, its poll is ended by the kernel and armed again, reports once more, and is removed. -/
example : ∃ s, Reachable Init step s ∧ Before s.log (.event 0 4) (.delEnd 0) ∧ Ev.rearm 0 ∈ s.log ∧ Ev.kfail 0 ∉ s.log ∧
    ¬ Before s.log (.delStart 0) (.rearm 0) ∧ Ev.freedE 0 ∈ s.log := by
  obtain ⟨s, hr, hp⟩ := reach_of
    (acts := [.add 0, .submit, .event 0 1 false, .complete 2, .submit, .event 1 4 true, .complete 0, .del 0 0, .removeHit 1, .die 1,
      .complete 0, .complete 0])
    (P := fun s => decide (s.log = [.add 0, .kev 0 1, .event 0 1, .rearm 0, .kev 1 4, .event 0 4, .delStart 0, .delEnd 0, .freedE 0])) (by decide)
  have hp := of_decide_eq_true hp
  refine ⟨s, hr, ?_, by rw [hp]; decide, by rw [hp]; decide, ?_, by rw [hp]; decide⟩
  · rw [hp]; exact ⟨[.add 0, .kev 0 1, .event 0 1, .rearm 0, .kev 1 4], [.delStart 0], [.freedE 0], rfl⟩
  · rw [hp]
    refine pairwise_not_before (P := fun a b => a = Ev.delStart 0 → b ≠ Ev.rearm 0) (by decide) (fun h => h rfl rfl)

/-- A removal finds the poll of its entry. -/
example : ∃ s, Reachable Init step s ∧ RemovesEntry s 0 ∧ (step s (.removeHit 0)).isSome = true := by
  obtain ⟨s, hr, hp⟩ := reach_of (acts := [.add 0, .submit, .del 0 1])
    (P := fun s => decide (s.sq = [1] ∧ s.reqs[1]? = some (R.mk (1, 0) (.rmEnt 0 (0, 1)) .queued)) && (step s (.removeHit 0)).isSome) (by decide)
  simp only [Bool.and_eq_true, decide_eq_true_eq] at hp
  exact ⟨s, hr, ⟨1, [], _, _, hp.1.1, hp.1.2, rfl⟩, hp.2⟩

/-- An entry that is not deleted, with a report at the head of the queue. -/
example : ∃ s c x, Reachable Init step s ∧ s.es[0]? = some x ∧ x.freed = false ∧ s.cq = [c] ∧ PollsEntry s c.rid 0 ∧
    c.res = .ev 1 ∧ s.slots 1 = none := by
  obtain ⟨s, hr, hp⟩ := reach_of (acts := [.add 0, .submit, .event 0 1 true])
    (P := fun s => decide (s.es[0]? = some (E.mk 0 (0, 1) false false) ∧ s.cq = [⟨0, (0, 1), .ev 1, true⟩] ∧
      s.reqs[0]? = some (R.mk (0, 1) (.ent 0) .kern) ∧ s.slots 1 = none)) (by decide)
  have hp := of_decide_eq_true hp
  exact ⟨s, _, _, hr, hp.1, rfl, hp.2.1, ⟨_, hp.2.2.1, rfl⟩, rfl, hp.2.2.2⟩

end Verif.UPoll
