import Verif.EpollSock.Spec

/-!
# Invariants of the epoll socket
-/
namespace Verif.EpollSock

/-- What holds between steps. -/
structure Inv (s : S) : Prop where
  armed : s.armed = s.opened
  rp : s.rptr = .pend ↔ s.r ≠ .idle
  hk : s.hookReg = true ↔ ∃ c, s.rptr = .hook c
  wp : s.wptr = .pend ↔ s.w ≠ .idle
  ap : s.apend = true ↔ ∃ d c, s.wptr = .areq d c
  rshut : s.r = .susp → s.opened = true → s.shut = false
  wshut : s.w = .susp → s.opened = true → s.shut = false
  redge : s.r = .susp → s.opened = true → Readable s → s.edge = true
  wedge : s.w = .susp → s.opened = true → Writable s → s.edge = true
  aopen : s.apend = true → s.opened = true
  aedge : s.apend = true → Writable s → s.edge = true

theorem inv_start {s : S} (h : Start s) : Inv s := by
  cases h <;> constructor <;> simp [S.fresh, S.accepted, Readable, Writable]

theorem mask_inn (s : S) : s.mask.inn = true ↔ Readable s := by
  simp [S.mask, Readable]; grind

theorem mask_out (s : S) : s.mask.out = true ↔ Writable s := by
  simp [S.mask, Writable]; grind

theorem krecv_ok {s s1 : S} {n : Nat} {bs : List Nat} (h : s.krecv n = .ok (bs, s1)) :
    s1 = { s with rx := s.rx.drop n } ∧ bs = s.rx.take n := by
  unfold S.krecv at h
  split at h
  · grind
  · rename_i e
    have e' : s.rx = [] := Classical.not_not.mp e
    have : { s with rx := s.rx.drop n } = s := by rw [e', List.drop_nil, ← e']
    rw [this, e', List.take_nil]
    grind

theorem krecv_again {s : S} {n : Nat} (h : s.krecv n = .again) : ¬ Readable s := by
  unfold S.krecv at h; unfold Readable; grind

theorem ksend_ok {s s1 : S} {n : Nat} {d : List Nat} (h : s.ksend d = .ok (n, s1)) :
    s1 = { s with room := s.room - n } ∧ n = min s.room d.length ∧ s.err = false ∧ s.shutWr = false
      ∧ s.conn = true := by
  unfold S.ksend at h; grind

theorem ksend_again {s : S} {d : List Nat} (h : s.ksend d = .again) : ¬ Writable s := by
  unfold S.ksend at h; unfold Writable; grind

theorem inv_recvTurn {s : S} {n : Nat} (h : Inv s) (hr : s.rptr = .null) :
    Inv (s.recvTurn n).2 := by
  obtain ⟨h1, h2, h3, h4, h5, h6, h7, h8, h9, h10, h11⟩ := h
  unfold S.recvTurn
  cases hk : s.krecv n with
  | ok p =>
    obtain ⟨bs, s1⟩ := p
    obtain ⟨rfl, -⟩ := krecv_ok hk
    constructor <;> grind [Readable, Writable, S.isShut]
  | again =>
    have := krecv_again hk
    constructor <;> grind [Readable, Writable, S.isShut]
  | fail => constructor <;> grind [Readable, Writable, S.isShut]

theorem inv_writeTurn {s : S} {d : List Nat} (h : Inv s) (hw : s.wptr = .null) :
    Inv (s.writeTurn d).2 := by
  obtain ⟨h1, h2, h3, h4, h5, h6, h7, h8, h9, h10, h11⟩ := h
  unfold S.writeTurn
  cases hk : s.ksend d with
  | ok p =>
    obtain ⟨n, s1⟩ := p
    obtain ⟨rfl, -⟩ := ksend_ok hk
    constructor <;> grind [Readable, Writable, S.isShut]
  | again =>
    have := ksend_again hk
    constructor <;> grind [Readable, Writable, S.isShut]
  | fail => constructor <;> grind [Readable, Writable, S.isShut]

/-- The invariant while an event with mask `m` is being handled: the edge has been taken, and the
fibers it concerns have not been woken yet. -/
structure Mid (m : Mask) (rd : Bool) (s : S) : Prop where
  armed : s.armed = s.opened
  rp : s.rptr = .pend ↔ s.r ≠ .idle
  hk : s.hookReg = true ↔ ∃ c, s.rptr = .hook c
  wp : s.wptr = .pend ↔ s.w ≠ .idle
  ap : s.apend = true ↔ ∃ d c, s.wptr = .areq d c
  rshut : rd = false → s.r = .susp → s.opened = true → s.shut = false
  redge : rd = false → s.r = .susp → s.opened = true → Readable s → s.edge = true
  rmask : rd = true → s.r = .susp → s.opened = true →
    (s.shut = true ∨ (Readable s ∧ s.edge = false)) → m.inn = true
  wmask : s.w = .susp → s.opened = true →
    (s.shut = true ∨ (Writable s ∧ s.edge = false)) → m.out = true
  aopen : s.apend = true → s.opened = true
  amask : s.apend = true → Writable s → s.edge = false → m.out = true

theorem handleIn_some {s : S} {m : Mask} (h : Mid m true s) :
    ∃ o s1, s.handleIn m = some (o, s1) ∧ Mid m false s1 := by
  obtain ⟨h1, h2, h3, h4, h5, h6, h7, h8, h9, h10, h11⟩ := h
  unfold S.handleIn
  split
  · refine ⟨_, _, rfl, ?_⟩
    constructor <;> grind [Mask.bad]
  split
  · rename_i hh
    obtain ⟨c, hc⟩ := h3.mp hh
    rw [hc]
    refine ⟨_, _, rfl, ?_⟩
    constructor <;> (try dsimp only) <;> grind [Readable, Writable]
  · split
    · grind
    · split
      · refine ⟨_, _, rfl, ?_⟩
        constructor <;> (try dsimp only) <;> grind [Readable, Writable]
      · refine ⟨_, _, rfl, ?_⟩
        constructor <;> (try dsimp only) <;> grind [Readable, Writable]
    · refine ⟨_, _, rfl, ?_⟩
      constructor <;> (try dsimp only) <;> grind [Readable, Writable]

theorem handleOut_some {s : S} {m : Mask} (h : Mid m false s) :
    ∃ o s1, s.handleOut m = some (o, s1) ∧ Inv s1 := by
  obtain ⟨h1, h2, h3, h4, h5, h6, h7, h8, h9, h10, h11⟩ := h
  unfold S.handleOut
  split
  · refine ⟨_, _, rfl, ?_⟩
    constructor <;> grind [Mask.bad]
  split
  · rename_i hh
    obtain ⟨d, c, hc⟩ := h5.mp hh
    rw [hc]
    dsimp only
    cases hk : s.ksend d with
    | ok p =>
      obtain ⟨n, s1⟩ := p
      obtain ⟨rfl, -⟩ := ksend_ok hk
      refine ⟨_, _, rfl, ?_⟩
      constructor <;> (try dsimp only) <;> grind [Readable, Writable]
    | again =>
      have := ksend_again hk
      refine ⟨_, _, rfl, ?_⟩
      constructor <;> (try dsimp only) <;> grind [Readable, Writable]
    | fail =>
      refine ⟨_, _, rfl, ?_⟩
      constructor <;> (try dsimp only) <;> grind [Readable, Writable]
  · split
    · grind
    · split
      · refine ⟨_, _, rfl, ?_⟩
        constructor <;> (try dsimp only) <;> grind [Readable, Writable]
      · refine ⟨_, _, rfl, ?_⟩
        constructor <;> (try dsimp only) <;> grind [Readable, Writable]
    · refine ⟨_, _, rfl, ?_⟩
      constructor <;> (try dsimp only) <;> grind [Readable, Writable]

theorem wakey_some {s : S} {m : Mask} (h : Mid m true s) :
    ∃ o s1, s.wakey m = some (o, s1) ∧ Inv s1 := by
  obtain ⟨o1, s1, e1, i1⟩ := handleIn_some h
  obtain ⟨o2, s2, e2, i2⟩ := handleOut_some i1
  unfold S.wakey
  rw [e1]; dsimp only; rw [e2]; dsimp only
  obtain ⟨h1, h2, h3, h4, h5, h6, h7, h8, h9, h10, h11⟩ := i2
  split
  · split
    · refine ⟨_, _, rfl, ?_⟩
      constructor <;> (try dsimp only) <;> grind [Readable, Writable]
    · exact ⟨_, _, rfl, ⟨h1, h2, h3, h4, h5, h6, h7, h8, h9, h10, h11⟩⟩
  · exact ⟨_, _, rfl, ⟨h1, h2, h3, h4, h5, h6, h7, h8, h9, h10, h11⟩⟩

theorem shutdown_some {s : S} (h : Inv s) (rd wr : Bool) :
    ∃ o s1, s.shutdown rd wr = some (o, s1) ∧ Inv s1 := by
  obtain ⟨h1, h2, h3, h4, h5, h6, h7, h8, h9, h10, h11⟩ := h
  apply wakey_some
  split <;> constructor <;> (try dsimp only) <;> grind [Readable, Writable]

theorem dispatch_some {s : S} (h : Inv s) :
    ∃ o s1, ({ s with edge := false } : S).wakey s.mask = some (o, s1) ∧ Inv s1 := by
  obtain ⟨h1, h2, h3, h4, h5, h6, h7, h8, h9, h10, h11⟩ := h
  apply wakey_some
  have a := mask_inn s
  have b := mask_out s
  have c : Readable { s with edge := false } ↔ Readable s := Iff.rfl
  have d : Writable { s with edge := false } ↔ Writable s := Iff.rfl
  constructor <;> (try dsimp only) <;> grind

theorem close_some {s : S} (h : Inv s) : ∃ o s1, s.close = some (o, s1) ∧ Inv s1 := by
  have h0 := h
  obtain ⟨h1, h2, h3, h4, h5, h6, h7, h8, h9, h10, h11⟩ := h
  unfold S.close S.closeAsync
  split
  · dsimp only
    by_cases hh : s.apend = true
    · rw [if_pos hh]
      obtain ⟨d, c, hc⟩ := h5.mp hh
      rw [hc]
      refine ⟨_, _, rfl, ?_⟩
      unfold S.closeHook
      split <;> constructor <;> (try dsimp only) <;> grind [Readable, Writable]
    · rw [if_neg hh]
      refine ⟨_, _, rfl, ?_⟩
      unfold S.closeHook
      split <;> constructor <;> (try dsimp only) <;> grind [Readable, Writable]
  · exact ⟨_, _, rfl, h0⟩

theorem inv_asyncWrite {s s1 : S} {c : Nat} {d : List Nat} {o : List Obs} (h : Inv s)
    (e : s.asyncWrite c d = some (o, s1)) : Inv s1 := by
  obtain ⟨h1, h2, h3, h4, h5, h6, h7, h8, h9, h10, h11⟩ := h
  unfold S.asyncWrite at e
  split at e
  · simp only [Option.some.injEq, Prod.mk.injEq] at e; obtain ⟨-, rfl⟩ := e
    constructor <;> (try dsimp only) <;> grind [Readable, Writable]
  · rename_i hs
    cases hk : s.ksend d with
    | ok p =>
      obtain ⟨n, s2⟩ := p
      obtain ⟨rfl, -⟩ := ksend_ok hk
      rw [hk] at e
      simp only [Option.some.injEq, Prod.mk.injEq] at e; obtain ⟨-, rfl⟩ := e
      constructor <;> (try dsimp only) <;> grind [Readable, Writable]
    | again =>
      have := ksend_again hk
      rw [hk] at e
      dsimp only at e
      split at e
      · simp only [Option.some.injEq, Prod.mk.injEq] at e; obtain ⟨-, rfl⟩ := e
        constructor <;> (try dsimp only) <;> grind [Readable, Writable, S.isShut]
      · simp at e
    | fail =>
      rw [hk] at e
      simp only [Option.some.injEq, Prod.mk.injEq] at e; obtain ⟨-, rfl⟩ := e
      constructor <;> (try dsimp only) <;> grind [Readable, Writable]

theorem inv_trySend {s : S} {d : List Nat} (h : Inv s) : Inv (s.trySend d).2 := by
  have h0 := h
  obtain ⟨h1, h2, h3, h4, h5, h6, h7, h8, h9, h10, h11⟩ := h
  unfold S.trySend
  split
  · exact h0
  cases hk : s.ksend d with
  | ok p =>
    obtain ⟨n, s2⟩ := p
    obtain ⟨rfl, -⟩ := ksend_ok hk
    constructor <;> (try dsimp only) <;> grind [Readable, Writable]
  | again => exact h0
  | fail => exact h0

theorem inv_tryRecv {s : S} {n : Nat} (h : Inv s) : Inv (s.tryRecv n).2 := by
  have h0 := h
  obtain ⟨h1, h2, h3, h4, h5, h6, h7, h8, h9, h10, h11⟩ := h
  unfold S.tryRecv
  split
  · exact h0
  cases hk : s.krecv n with
  | ok p =>
    obtain ⟨n, s2⟩ := p
    obtain ⟨rfl, -⟩ := krecv_ok hk
    constructor <;> (try dsimp only) <;> grind [Readable, Writable]
  | again => exact h0
  | fail => exact h0

theorem inv_connect {s s1 : S} {res : ConnRes} {o : List Obs} (h : Inv s)
    (e : s.connect res = some (o, s1)) : Inv s1 := by
  obtain ⟨h1, h2, h3, h4, h5, h6, h7, h8, h9, h10, h11⟩ := h
  unfold S.connect at e
  split at e
  · simp at e
  · rename_i hc
    simp only [Bool.or_eq_true, decide_eq_true_eq, not_or, ne_eq, Classical.not_not] at hc
    obtain ⟨⟨ho, hr⟩, hw⟩ := hc
    cases res <;> simp only [Option.some.injEq, Prod.mk.injEq] at e <;> obtain ⟨-, rfl⟩ := e <;>
      constructor <;> (try dsimp only) <;> grind [Readable, Writable]

theorem inv_regHook {s s1 : S} {c : Nat} {o : List Obs} (h : Inv s) (hr : s.r = .idle)
    (e : s.regHook c = some (o, s1)) : Inv s1 := by
  obtain ⟨h1, h2, h3, h4, h5, h6, h7, h8, h9, h10, h11⟩ := h
  unfold S.regHook at e
  split at e
  · simp at e
  · rename_i hc
    split at e <;> simp only [Option.some.injEq, Prod.mk.injEq] at e <;> obtain ⟨-, rfl⟩ := e <;>
      constructor <;> (try dsimp only) <;> grind [Readable, Writable]

theorem inv_connectDone {s : S} {k : Wake} (h : Inv s) (hw : s.wptr = .null) :
    Inv (s.connectDone k).2 := by
  obtain ⟨h1, h2, h3, h4, h5, h6, h7, h8, h9, h10, h11⟩ := h
  unfold S.connectDone
  split
  · constructor <;> (try dsimp only) <;> grind [Readable, Writable]
  · split <;> constructor <;> (try dsimp only) <;> grind [Readable, Writable]

/-- Every step keeps the invariant. -/
theorem inv_step {s s1 : S} {a : Act} {o : List Obs} (h : Inv s) (e : cstep s a = some (o, s1)) :
    Inv s1 := by
  have h0 := h
  obtain ⟨h1, h2, h3, h4, h5, h6, h7, h8, h9, h10, h11⟩ := h
  unfold cstep at e
  split at e
  case isFalse => simp at e
  rename_i hct
  cases a with
  | dispatch =>
    simp only [step] at e
    split at e
    · obtain ⟨o', s', e', i⟩ := dispatch_some h0
      rw [e'] at e; simp only [Option.some.injEq, Prod.mk.injEq] at e; exact e.2 ▸ i
    · simp only [Option.some.injEq, Prod.mk.injEq] at e; exact e.2 ▸ h0
  | shutdown rd wr =>
    obtain ⟨o', s', e', i⟩ := shutdown_some h0 rd wr
    simp only [step] at e
    rw [e'] at e; simp only [Option.some.injEq, Prod.mk.injEq] at e; exact e.2 ▸ i
  | close =>
    obtain ⟨o', s', e', i⟩ := close_some h0
    simp only [step] at e
    rw [e'] at e; simp only [Option.some.injEq, Prod.mk.injEq] at e; exact e.2 ▸ i
  | asyncWrite c d => exact inv_asyncWrite h0 e
  | trySend d =>
    simp only [step, Option.some.injEq] at e
    have := inv_trySend (d := d) h0
    rw [e] at this; exact this
  | tryRecv n =>
    simp only [step, Option.some.injEq] at e
    have := inv_tryRecv (n := n) h0
    rw [e] at this; exact this
  | connect res => exact inv_connect h0 e
  | regHook c => exact inv_regHook h0 hct e
  | resetHook =>
    simp only [step, Option.some.injEq, Prod.mk.injEq] at e
    obtain ⟨-, rfl⟩ := e
    unfold S.resetHook
    split
    · constructor <;> (try dsimp only) <;> grind [Readable, Writable]
    · exact h0
  | recv n =>
    simp only [step] at e
    split at e
    · simp at e
    · split at e
      · simp at e
      · rename_i ha hb
        simp only [Bool.or_eq_true, decide_eq_true_eq, not_or, ne_eq, Classical.not_not] at ha
        simp only [Option.some.injEq] at e
        have := inv_recvTurn (n := n) h0 ha.2
        rw [e] at this; exact this
  | write d =>
    simp only [step] at e
    split at e
    · simp at e
    · split at e
      · simp at e
      · rename_i ha hb
        simp only [Bool.or_eq_true, decide_eq_true_eq, not_or, ne_eq, Classical.not_not] at ha
        simp only [Option.some.injEq] at e
        have := inv_writeTurn (d := d) h0 ha.2
        rw [e] at this; exact this
  | runR =>
    simp only [step] at e
    split at e
    · rename_i k hk
      have hi : Inv { s with rptr := .null, r := .idle } := by
        constructor <;> (try dsimp only) <;> grind [Readable, Writable]
      cases k with
      | ok =>
        simp only [Option.some.injEq] at e
        have := inv_recvTurn (n := s.rcap) hi rfl
        have e2 : (({ s with rptr := .null } : S).recvTurn s.rcap).2
            = (({ s with rptr := .null, r := .idle } : S).recvTurn s.rcap).2 := by
          unfold S.recvTurn S.krecv S.isShut
          grind
        rw [← e2, e] at this; exact this
      | aborted => simp only [Option.some.injEq, Prod.mk.injEq] at e; exact e.2 ▸ hi
      | timedOut => simp only [Option.some.injEq, Prod.mk.injEq] at e; exact e.2 ▸ hi
    · simp only [Option.some.injEq, Prod.mk.injEq] at e; exact e.2 ▸ h0
  | runW =>
    simp only [step] at e
    split at e
    · rename_i k hk
      have hi : Inv { s with wptr := .null, w := .idle } := by
        constructor <;> (try dsimp only) <;> grind [Readable, Writable]
      cases hwk : s.wk with
      | connect =>
        rw [hwk] at e
        simp only [Option.some.injEq] at e
        have := inv_connectDone (k := k) hi rfl
        have e2 : (({ s with wptr := .null } : S).connectDone k).2
            = (({ s with wptr := .null, w := .idle } : S).connectDone k).2 := by
          unfold S.connectDone
          grind
        rw [hwk] at e2 this
        rw [← e2, e] at this; exact this
      | write d =>
        rw [hwk] at e
        cases k with
        | ok =>
          simp only [Option.some.injEq] at e
          have := inv_writeTurn (d := d) hi rfl
          have e2 : (({ s with wptr := .null } : S).writeTurn d).2
              = (({ s with wptr := .null, w := .idle } : S).writeTurn d).2 := by
            unfold S.writeTurn S.ksend S.isShut
            grind
          rw [hwk] at e2 this
          rw [← e2, e] at this; exact this
        | aborted =>
          rw [hwk] at hi
          simp only [Option.some.injEq, Prod.mk.injEq] at e; exact e.2 ▸ hi
        | timedOut =>
          rw [hwk] at hi
          simp only [Option.some.injEq, Prod.mk.injEq] at e; exact e.2 ▸ hi
    · simp only [Option.some.injEq, Prod.mk.injEq] at e; exact e.2 ▸ h0
  | drain k =>
    simp only [step] at e
    split at e
    · simp only [Option.some.injEq, Prod.mk.injEq] at e
      obtain ⟨-, rfl⟩ := e
      have hd : ∀ b : Bool, (b || decide (s.room = 0) && decide (k ≠ 0)) = true ↔
          b = true ∨ (s.room = 0 ∧ k ≠ 0) := by simp
      have hW : ∀ b : Bool, Writable { s with room := s.room + k, edge := b } →
          Writable s ∨ (s.room = 0 ∧ k ≠ 0) := by
        unfold Writable; dsimp only; intro b hb
        by_cases hz : s.room = 0 <;> grind
      constructor <;> (try dsimp only) <;> try rw [hd]
      all_goals grind [Readable]
    · simp only [Option.some.injEq, Prod.mk.injEq] at e; exact e.2 ▸ h0
  | cancelErr =>
    simp only [step, Option.some.injEq, Prod.mk.injEq] at e
    obtain ⟨-, rfl⟩ := e
    constructor <;> (try dsimp only) <;> grind [Readable, Writable]
  | _ =>
    simp only [step] at e
    split at e <;> simp only [Option.some.injEq, Prod.mk.injEq, reduceCtorEq] at e <;>
      first
      | (obtain ⟨-, rfl⟩ := e
         first | exact h0 | (constructor <;> (try dsimp only) <;> grind [Readable, Writable]))
      | skip

/-- Every reachable state satisfies the invariant. -/
theorem inv_run {s s1 : S} {acts : List Act} {os : List (List Obs)} (h : Start s)
    (e : crun s acts = some (os, s1)) : Inv s1 :=
  Common.run_invariant Inv (fun _ _ _ _ hI hst => inv_step hI hst) acts s os s1 (inv_start h) e

end Verif.EpollSock
