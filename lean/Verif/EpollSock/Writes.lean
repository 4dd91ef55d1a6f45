import Verif.EpollSock.Stream

/-!
# Sent bytes, and the calls that never run into a CHECK
-/
namespace Verif.EpollSock

/-- Nothing in `o` is about blocking writes. -/
def NoW (o : List Obs) : Prop := (∀ bs, .wire .write bs ∉ o) ∧ ∀ n, .wrote n ∉ o

theorem handleIn_frame {s s1 : S} {m : Mask} {o : List Obs} (h : s.handleIn m = some (o, s1)) :
    NoW o ∧ s1.w = s.w ∧ s1.wk = s.wk ∧ s1.wptr = s.wptr ∧ s1.apend = s.apend ∧ s1.brief = s.brief
      ∧ s1.errorCb = s.errorCb ∧ s1.opened = s.opened ∧ s1.conn = s.conn ∧ s1.err = s.err
      ∧ s1.rptr = s.rptr ∧ s1.edge = s.edge ∧ s1.room = s.room ∧ s1.shutWr = s.shutWr
      ∧ s1.hookReg = s.hookReg := by
  unfold S.handleIn at h
  unfold NoW
  repeat' split at h
  all_goals simp only [Option.some.injEq, Prod.mk.injEq, reduceCtorEq] at h
  all_goals obtain ⟨rfl, rfl⟩ := h
  all_goals simp

theorem handleOut_frame {s s1 : S} {m : Mask} {o : List Obs} (h : s.handleOut m = some (o, s1)) :
    NoW o ∧ (s1.w = s.w ∨ s.w = .susp ∧ s1.w = .ready m.wake) ∧ s1.wk = s.wk
      ∧ s1.brief = s.brief ∧ s1.errorCb = s.errorCb ∧ s1.opened = s.opened ∧ s1.conn = s.conn
      ∧ s1.err = s.err ∧ s1.rptr = s.rptr ∧ s1.edge = s.edge ∧ s1.r = s.r
      ∧ s1.hookReg = s.hookReg := by
  unfold S.handleOut at h
  unfold NoW
  split at h
  · grind
  split at h
  · split at h
    · rename_i d c hc
      cases hk : s.ksend d with
      | ok p =>
        obtain ⟨n, s2⟩ := p
        obtain ⟨rfl, -⟩ := ksend_ok hk
        rw [hk] at h
        simp only [Option.some.injEq, Prod.mk.injEq] at h
        obtain ⟨rfl, rfl⟩ := h
        simp
      | again =>
        rw [hk] at h
        simp only [Option.some.injEq, Prod.mk.injEq] at h
        obtain ⟨rfl, rfl⟩ := h
        simp
      | fail =>
        rw [hk] at h
        simp only [Option.some.injEq, Prod.mk.injEq] at h
        obtain ⟨rfl, rfl⟩ := h
        simp
    · simp at h
  · repeat' split at h
    all_goals simp only [Option.some.injEq, Prod.mk.injEq, reduceCtorEq] at h
    all_goals obtain ⟨rfl, rfl⟩ := h
    all_goals simp [*]

theorem NoW.append {a b : List Obs} (ha : NoW a) (hb : NoW b) : NoW (a ++ b) := by
  unfold NoW at *; grind

theorem wakey_frame {s s1 : S} {m : Mask} {o : List Obs} (h : s.wakey m = some (o, s1)) :
    NoW o ∧ (s1.w = s.w ∨ s.w = .susp ∧ s1.w = .ready m.wake) ∧ s1.wk = s.wk
      ∧ s1.brief = s.brief ∧ s1.opened = s.opened ∧ s1.conn = s.conn
      ∧ s1.err = s.err ∧ s1.rptr = s.rptr ∧ s1.edge = s.edge ∧ s1.hookReg = s.hookReg := by
  unfold S.wakey at h
  cases h1 : s.handleIn m with
  | none => simp [h1] at h
  | some p =>
    obtain ⟨o1, sa⟩ := p
    rw [h1] at h; dsimp only at h
    have ha := handleIn_frame h1
    cases h2 : sa.handleOut m with
    | none => simp [h2] at h
    | some p =>
      obtain ⟨o2, sb⟩ := p
      rw [h2] at h; dsimp only at h
      have hb := handleOut_frame h2
      have hab := ha.1.append hb.1
      obtain ⟨-, a1, a2, a3, a4, a5, a6, a7, a8, a9, a10, a11, a12, a13, a14⟩ := ha
      obtain ⟨-, b1, b2, b3, b4, b5, b6, b7, b8, b9, b10, b11⟩ := hb
      rw [a1] at b1
      split at h
      · split at h
        · simp only [Option.some.injEq, Prod.mk.injEq] at h
          obtain ⟨rfl, rfl⟩ := h
          refine ⟨hab.append (by simp [NoW]), b1, ?_⟩
          simp [*]
        · simp only [Option.some.injEq, Prod.mk.injEq] at h
          obtain ⟨rfl, rfl⟩ := h
          refine ⟨hab, b1, ?_⟩
          simp [*]
      · simp only [Option.some.injEq, Prod.mk.injEq] at h
        obtain ⟨rfl, rfl⟩ := h
        refine ⟨hab, b1, ?_⟩
        simp [*]

/-- The observations of blocking writes in one step. `cur` is the data being written. -/
def WOk (cur : Option (List Nat)) (o : List Obs) : Prop :=
  (∀ bs, .wire .write bs ∈ o → ∃ d n, cur = some d ∧ n ≤ d.length ∧ bs = d.take n ∧ .wrote n ∈ o) ∧
  (∀ n, .wrote n ∈ o → ∃ d, cur = some d ∧ n ≤ d.length ∧ .wire .write (d.take n) ∈ o)

theorem NoW.ok {o : List Obs} (h : NoW o) (cur) : WOk cur o :=
  ⟨fun bs hb => absurd hb (h.1 bs), fun n hn => absurd hn (h.2 n)⟩

theorem writes_writeTurn (s : S) (d : List Nat) :
    WOk (some d) (s.writeTurn d).1 ∧
      ((s.writeTurn d).2.w ≠ .idle → (s.writeTurn d).2.wk = .write d) := by
  unfold S.writeTurn WOk
  split
  · simp
  · cases hk : s.ksend d with
    | ok p =>
      obtain ⟨n, s1⟩ := p
      have := (ksend_ok hk).2.1
      have hn : n ≤ d.length := by omega
      simp only [List.mem_cons, Obs.wire.injEq, List.not_mem_nil, or_false, reduceCtorEq, false_or,
        Obs.wrote.injEq, ne_eq, not_true, false_implies, and_true]
      constructor
      · intro bs hbs
        exact ⟨d, n, rfl, hn, hbs.2, rfl⟩
      · intro m hm
        subst hm
        exact ⟨d, rfl, hn, by simp⟩
    | again => simp
    | fail => simp

theorem writes_step {s s1 : S} {a : Act} {o : List Obs} {cur : Option (List Nat)}
    (hcur : s.w ≠ .idle → ∀ d, s.wk = .write d → cur = some d) (e : cstep s a = some (o, s1)) :
    WOk (curAfter cur a) o ∧ (s1.w ≠ .idle → ∀ d, s1.wk = .write d → curAfter cur a = some d) := by
  unfold cstep at e
  unfold curAfter
  split at e
  case isFalse => simp at e
  have nil : ∀ c, WOk c [] := fun c => by simp [WOk]
  cases a with
  | dispatch =>
    simp only [step] at e
    split at e
    · have := wakey_frame e
      refine ⟨this.1.ok _, ?_⟩
      dsimp only at this ⊢
      grind
    · simp only [Option.some.injEq, Prod.mk.injEq] at e; obtain ⟨rfl, rfl⟩ := e; exact ⟨nil _, hcur⟩
  | shutdown rd wr =>
    simp only [step, S.shutdown] at e
    have := wakey_frame e
    refine ⟨this.1.ok _, ?_⟩
    dsimp only at this ⊢
    grind
  | write d =>
    simp only [step] at e
    have := writes_writeTurn s d
    grind
  | runW =>
    simp only [step] at e
    split at e
    · rename_i k hk
      split at e
      · simp only [Option.some.injEq] at e
        unfold S.connectDone at e
        unfold WOk
        grind
      · rename_i d hd
        have hc := hcur (by rw [hk]; simp) d hd
        cases k with
        | ok =>
          simp only [Option.some.injEq] at e
          have := writes_writeTurn { s with wptr := .null } d
          rw [e] at this
          subst hc
          refine ⟨this.1, ?_⟩
          intro h1 d' h2
          have := this.2 h1
          rw [this] at h2
          simp only [WKind.write.injEq] at h2
          rw [h2]
        | aborted => unfold WOk; grind
        | timedOut => unfold WOk; grind
    · simp only [Option.some.injEq, Prod.mk.injEq] at e; obtain ⟨rfl, rfl⟩ := e; exact ⟨nil _, hcur⟩
  | recv n =>
    simp only [step] at e
    unfold S.recvTurn at e
    have : ∀ bs s2, s.krecv n = .ok (bs, s2) → s2.w = s.w ∧ s2.wk = s.wk := by
      intro bs s2 h; obtain ⟨rfl, -⟩ := krecv_ok h; simp
    unfold WOk
    grind
  | runR =>
    simp only [step] at e
    unfold S.recvTurn at e
    have : ∀ n bs s2, ({ s with rptr := .null } : S).krecv n = .ok (bs, s2) → s2.w = s.w ∧ s2.wk = s.wk := by
      intro n bs s2 h; obtain ⟨rfl, -⟩ := krecv_ok h; simp
    unfold WOk
    grind
  | tryRecv n =>
    simp only [step] at e
    unfold S.tryRecv at e
    have : ∀ bs s2, s.krecv n = .ok (bs, s2) → s2.w = s.w ∧ s2.wk = s.wk := by
      intro bs s2 h; obtain ⟨rfl, -⟩ := krecv_ok h; simp
    unfold WOk
    grind
  | asyncWrite c d =>
    simp only [step, S.asyncWrite] at e
    have : ∀ n s2, s.ksend d = .ok (n, s2) → s2.w = s.w ∧ s2.wk = s.wk := by
      intro n s2 h; obtain ⟨rfl, -⟩ := ksend_ok h; simp
    unfold WOk
    grind
  | trySend d =>
    simp only [step, S.trySend] at e
    have : ∀ n s2, s.ksend d = .ok (n, s2) → s2.w = s.w ∧ s2.wk = s.wk := by
      intro n s2 h; obtain ⟨rfl, -⟩ := ksend_ok h; simp
    unfold WOk
    grind
  | close =>
    simp only [step, S.close, S.closeAsync, S.closeHook] at e
    unfold WOk
    grind
  | connect r =>
    simp only [step, S.connect] at e
    unfold WOk
    cases r <;> grind
  | regHook c =>
    simp only [step, S.regHook] at e
    unfold WOk
    grind
  | resetHook =>
    simp only [step, S.resetHook] at e
    unfold WOk
    grind
  | _ =>
    simp only [step] at e
    unfold WOk
    grind

end Verif.EpollSock
