import Verif.Tls.CalmSafe

/-! # Deferred requests, when no fiber is inside a blocking call -/
namespace Verif.Tls

/-- Why a request is deferred. -/
def DF (ρ : Role) (s s1 : S) : Prop := s1.blocked = some ρ → s.blocked = some ρ ∨ s.wown ≠ none ∨ s.rown ≠ none

theorem df_startUpW {s s1 : S} {ρ : Role} (e : s.startUpW ρ = some s1) : DF ρ s s1 := by
  unfold S.startUpW at e
  split at e
  · rename_i x hx
    split at e
    · simp at e
    · intro _; right; left; simp [hx]
  · split at e
    · simp at e
    · simp only [Option.some.injEq] at e; subst e; exact Or.inl

theorem df_startUpR {s s1 : S} {ρ : Role} (e : s.startUpR ρ = some s1) : DF ρ s s1 := by
  unfold S.startUpR at e
  split at e
  · rename_i x hx
    intro _; right; right; simp [hx]
  · simp only [Option.some.injEq] at e; subst e; exact Or.inl

theorem df_complete (s : S) (ρ : Role) (x : Except Err Nat) : DF ρ s (s.complete ρ x) := by
  unfold S.complete
  split
  · exact Or.inl
  · simp only
    split <;> exact Or.inl

theorem df_handleOp {s s1 : S} {ρ : Role} {o : Op} (e : s.handleOp ρ o = some s1) : DF ρ s s1 := by
  unfold S.handleOp at e
  split at e
  · split at e
    · have := df_startUpW e; exact this
    · exact df_startUpR e
  · exact df_startUpW e
  · simp only [Option.some.injEq] at e; subst e; exact df_complete _ _ _
  · simp only [Option.some.injEq] at e; subst e; exact df_complete _ _ _

theorem df_asyncRead {s s1 : S} {n : Nat} (e : s.asyncRead n = some s1) : DF .reader s s1 := by
  unfold S.asyncRead at e
  split at e
  · simp at e
  cases hr : s.e.read n with
  | mk r e1 =>
    rw [hr] at e
    cases r with
    | ok bs => simp only [Option.some.injEq] at e; subst e; exact Or.inl
    | error o =>
      cases o with
      | abrupt => simp only [Option.some.injEq] at e; subst e; exact Or.inl
      | graceful => simp only [Option.some.injEq] at e; subst e; exact Or.inl
      | needRead => have := df_handleOp e; exact this
      | needWrite => have := df_handleOp e; exact this

theorem df_asyncWrite {s s1 : S} {iov : List (List Nat)} (e : s.asyncWrite iov = some s1) : DF .writer s s1 := by
  unfold S.asyncWrite at e
  split at e
  · simp at e
  split at e
  · simp at e
  · simp only at e
    split at e
    · have := df_startUpW e; exact this
    · have := df_handleOp e; exact this

theorem df_roleAction {s s1 : S} {ρ : Role} (e : s.roleAction ρ = some s1) : DF ρ s s1 := by
  unfold S.roleAction at e
  split at e
  · simp only [Option.some.injEq] at e; subst e; exact Or.inl
  split at e
  · rename_i n hk
    cases hr : s.e.read n with
    | mk r e1 =>
      rw [hr] at e
      cases r with
      | ok bs => simp only [Option.some.injEq] at e; subst e; exact df_complete _ _ _
      | error o => have := df_handleOp e; exact this
  · simp only [Option.some.injEq] at e; subst e; exact df_complete _ _ _
  · split at e
    · simp only [Option.some.injEq] at e; subst e; exact df_complete _ _ _
    · split at e
      · simp at e
      · simp only at e
        split at e
        · have := df_startUpW e; exact this
        · have := df_handleOp e; exact this

/-- No fiber is inside a call, and a deferred request waits for the other one. -/
structure Quiet (s : S) : Prop where
  fib : ∀ f, s.fib f = .idle
  wait : ∀ ρ, s.blocked = some ρ → ∃ ρ', ρ' ≠ ρ ∧ s.up ρ' ≠ .none

theorem Quiet.init (script ups hook) : Quiet (S.init script ups hook) := ⟨fun _ => rfl, by simp [S.init]⟩

/-- Without fibers the flags belong to requests. -/
theorem flags_req {s : S} (o : Own s) (hf : ∀ f, s.fib f = .idle) {ρ : Role} (hu : s.up ρ = .none)
    (h : s.wown ≠ none ∨ s.rown ≠ none) : ∃ ρ', ρ' ≠ ρ ∧ s.up ρ' ≠ .none := by
  have fin : ∀ ρ', (s.up ρ').isW = true ∨ (s.up ρ').isR = true → ∃ ρ', ρ' ≠ ρ ∧ s.up ρ' ≠ .none := by
    intro ρ' hx
    refine ⟨ρ', ?_, ?_⟩
    · rintro rfl; rw [hu] at hx; simp [Up.isW, Up.isR] at hx
    · intro hn; rw [hn] at hx; simp [Up.isW, Up.isR] at hx
  rcases h with h | h
  · obtain ⟨x, hx⟩ := Option.ne_none_iff_exists'.1 h
    cases x with
    | fib f => have := (o.wf f).2 hx; rw [hf f] at this; simp [Fib.isW] at this
    | req ρ' => exact fin ρ' (Or.inl ((o.wq ρ').2 hx))
  · obtain ⟨x, hx⟩ := Option.ne_none_iff_exists'.1 h
    cases x with
    | fib f => have := (o.rf f).2 hx; rw [hf f] at this; simp [Fib.isR] at this
    | req ρ' => exact fin ρ' (Or.inr ((o.rq ρ').2 hx))

/-- An action on a request whose operation is over, when nothing is deferred. -/
theorem Quiet.act {s s1 : S} {ρ : Role} (o : Own s) (hf : ∀ f, s.fib f = .idle) (hu : s.up ρ = .none)
    (hb : s.blocked = none) (k : FrameA ρ s s1) (d : DF ρ s s1) : Quiet s1 := by
  refine ⟨fun f => by rw [k.fib]; exact hf f, ?_⟩
  intro r hr
  rcases k.blk with b | b
  · rw [b, hb] at hr; simp at hr
  · have : r = ρ := by rw [b.2] at hr; simpa using hr.symm
    subst this
    rcases d b.2 with x | x
    · rw [hb] at x; simp at x
    · obtain ⟨ρ', h1, h2⟩ := flags_req o hf hu x
      exact ⟨ρ', h1, by simpa [S.up, k.req ρ' h1] using h2⟩

/-- What runs when an operation is over, without fibers: afterwards nothing is deferred. -/
theorem quiet_runPending {s s1 : S} {ρ : Role} (o : Own s) (hf : ∀ f, s.fib f = .idle) (hu : s.up ρ = .none)
    (hb : s.blocked ≠ some ρ) (e : s.runPending = some s1) :
    s1.blocked = none ∧ (∀ f, s1.fib f = .idle) := by
  obtain ⟨o1, r1, b1, h⟩ := own_runPending o hb e
  rcases h with rfl | ⟨ρ', h1, h2, k⟩
  · refine ⟨?_, hf⟩
    cases hx : s1.blocked with
    | none => rfl
    | some ρ' =>
      exfalso
      unfold S.runPending at e
      rw [hx] at e
      -- unchanged, so it is still deferred
      have hne : ρ' ≠ ρ := fun y => hb (by rw [hx, y])
      obtain ⟨u', q'⟩ := o.bl ρ' hx
      obtain ⟨q, hq⟩ := Option.ne_none_iff_exists'.1 q'
      have noflags : s1.wown = none ∧ s1.rown = none := by
        constructor
        · refine Classical.byContradiction fun y => ?_
          obtain ⟨r, k1, k2⟩ := flags_req o hf hu (Or.inl y)
          have : r = ρ' := by cases r <;> cases ρ <;> cases ρ' <;> simp_all
          subst this; exact k2 u'
        · refine Classical.byContradiction fun y => ?_
          obtain ⟨r, k1, k2⟩ := flags_req o hf hu (Or.inr y)
          have : r = ρ' := by cases r <;> cases ρ <;> cases ρ' <;> simp_all
          subst this; exact k2 u'
      have no : ∀ ρ'', DF ρ'' { s1 with blocked := none } s1 → s1.blocked = some ρ'' → False := by
        intro ρ'' d hy
        rcases d hy with x | x | x
        · simp at x
        · exact x noflags.1
        · exact x noflags.2
      simp only [hq] at e
      split at e
      · exact no ρ' (df_startUpR e) hx
      · have hk := o.kq ρ' q hq
        split at e
        · rename_i hkd; rw [hkd] at hk; have := Kind.ok_user hk; subst this
          have d := df_asyncWrite e; exact no .writer d hx
        · rename_i hkd; rw [hkd] at hk; have := Kind.ok_flush hk; subst this
          have d := df_asyncWrite e; exact no .writer d hx
        · rename_i hkd; rw [hkd] at hk; have := Kind.ok_read hk; subst this
          have d := df_asyncRead e; exact no .reader d hx
  · refine ⟨?_, fun f => by rw [k.fib]; exact hf f⟩
    rcases k.blk with b | b
    · rw [b]
    · exfalso
      obtain ⟨u', q'⟩ := o.bl ρ' h2
      obtain ⟨q, hq⟩ := Option.ne_none_iff_exists'.1 q'
      have noflags : s.wown = none ∧ s.rown = none := by
        constructor
        · refine Classical.byContradiction fun y => ?_
          obtain ⟨r, k1, k2⟩ := flags_req o hf hu (Or.inl y)
          have : r = ρ' := by cases r <;> cases ρ <;> cases ρ' <;> simp_all
          subst this; exact k2 u'
        · refine Classical.byContradiction fun y => ?_
          obtain ⟨r, k1, k2⟩ := flags_req o hf hu (Or.inr y)
          have : r = ρ' := by cases r <;> cases ρ <;> cases ρ' <;> simp_all
          subst this; exact k2 u'
      have no : DF ρ' { s with blocked := none } s1 → False := by
        intro d
        rcases d b.2 with x | x | x
        · simp at x
        · exact x noflags.1
        · exact x noflags.2
      unfold S.runPending at e
      rw [h2] at e
      simp only [hq] at e
      split at e
      · exact no (df_startUpR e)
      · have hk := o.kq ρ' q hq
        split at e
        · rename_i hkd; rw [hkd] at hk; have := Kind.ok_user hk; subst this
          have d := df_asyncWrite e; exact no d
        · rename_i hkd; rw [hkd] at hk; have := Kind.ok_flush hk; subst this
          have d := df_asyncWrite e; exact no d
        · rename_i hkd; rw [hkd] at hk; have := Kind.ok_read hk; subst this
          have d := df_asyncRead e; exact no d

theorem quiet_aWDone {s s1 : S} {ρ : Role} {k : Option Nat} (h : Own s) (a : Quiet s) (e : s.aWDone ρ k = some s1) :
    Quiet s1 := by
  unfold S.aWDone at e
  split at e
  · simp only [Option.some.injEq] at e; subst e; exact a
  rename_i q hq
  split at e
  · rename_i buf hu
    obtain ⟨hrel, hr, hb⟩ := own_releaseQW h hq hu
    have hup : s.up ρ = .wr buf := by simp [S.up, hq, upOf, hu]
    obtain ⟨hb1, hb2⟩ := h.bq ρ (by rw [hup]; rfl)
    rw [hup] at hb1 hb2
    simp only [Up.buf] at hb1 hb2
    have hnone : ∀ t : S, t.req ρ = some { q with up := .none } → t.up ρ = .none := by
      intro t ht; simp [S.up, ht, upOf]
    simp only at e
    split at e
    · split at e
      · simp at e
      · rename_i s2 he
        simp only [Option.some.injEq] at e; subst e
        have o1 := own_emit hrel [.upFail]
        obtain ⟨o2, q2, b2, _⟩ := own_runPending (ρ := ρ) o1 hb he
        obtain ⟨c1, c2⟩ := quiet_runPending (ρ := ρ) o1 (by exact a.fib) (hnone _ (by simp [S.emit, S.setReq])) hb he
        exact Quiet.act o2 c2 (hnone _ (by rw [q2]; simp [S.emit, S.setReq])) c1 (frame_complete _ _ _ (o2.kq ρ)) (df_complete _ _ _)
    · rename_i k
      have htake : buf.take (k + 1) = s.e.out.take (min (k + 1) buf.length) := by
        obtain ⟨t, ht⟩ := hb2
        rw [← ht, List.take_append, show min (k + 1) buf.length - buf.length = 0 from by omega]
        simp
      have hs := own_sent hrel htake rfl
      split at e
      · simp only [Option.some.injEq] at e; subst e
        refine ⟨a.fib, ?_⟩
        intro r hr
        obtain ⟨ρ', h1, h2⟩ := a.wait r hr
        refine ⟨ρ', h1, ?_⟩
        by_cases hx : ρ' = ρ
        · subst hx; simp [S.up, S.setReq, upOf]
        · simpa [S.up, S.setReq, hx] using h2
      · split at e
        · simp at e
        · rename_i s2 he
          have o1 := own_congr hs rfl rfl rfl rfl rfl rfl rfl
          obtain ⟨o2, q2, b2, _⟩ := own_runPending (ρ := ρ) o1 hb he
          obtain ⟨c1, c2⟩ := quiet_runPending (ρ := ρ) o1 (by exact a.fib) (hnone _ (by simp [S.setReq])) hb he
          have c3 := hnone s2 (by rw [q2]; simp [S.setReq])
          split at e
          · exact Quiet.act o2 c2 c3 c1 (frame_startUpR e) (df_startUpR e)
          · exact Quiet.act o2 c2 c3 c1 (frame_roleAction (o2.kq ρ) e) (df_roleAction e)
  · simp only [Option.some.injEq] at e; subst e; exact a

theorem quiet_aRDone {s s1 : S} {ρ : Role} {r : Rd} (h : Own s) (a : Quiet s) (e : s.aRDone ρ r = some s1) :
    Quiet s1 := by
  unfold S.aRDone at e
  split at e
  · simp only [Option.some.injEq] at e; subst e; exact a
  rename_i q hq
  split at e
  · rename_i pos hu
    obtain ⟨hrel, hw, hb⟩ := own_releaseQR h hq hu
    have hnone : ∀ t : S, t.req ρ = some { q with up := .none } → t.up ρ = .none := by
      intro t ht; simp [S.up, ht, upOf]
    simp only at e
    split at e
    · simp at e
    · rename_i s2 he
      obtain ⟨o2, q2, b2, _⟩ := own_runPending (ρ := ρ) hrel hb he
      obtain ⟨c1, c2⟩ := quiet_runPending (ρ := ρ) hrel (by exact a.fib) (hnone _ (by simp [S.setReq])) hb he
      have c3 := hnone s2 (by rw [q2]; simp [S.setReq])
      have fail : ∀ x, Quiet (s2.complete ρ x) := fun x =>
        Quiet.act o2 c2 c3 c1 (frame_complete _ _ _ (o2.kq ρ)) (df_complete _ _ _)
      split at e
      · simp only [Option.some.injEq] at e; subst e; exact fail _
      · simp only [Option.some.injEq] at e; subst e; exact fail _
      · split at e
        · simp only [Option.some.injEq] at e; subst e; exact fail _
        · split at e
          · simp at e
          · refine Quiet.act (own_commit o2) (by exact c2) (by exact c3) (by exact c1) (frame_roleAction (by exact o2.kq ρ) e) (df_roleAction e)
  · simp only [Option.some.injEq] at e; subst e; exact a

theorem quiet_step {s s1 : S} {a : Act} (ha : a.isFiber = false) (o : Own s) (h : Quiet s) (e : s.step a = some s1) :
    Quiet s1 := by
  have other : ∀ ρ, s.req ρ = none → s.blocked = none ∨ ∃ r, r ≠ ρ ∧ s.blocked = some r := by
    intro ρ hq
    cases hb : s.blocked with
    | none => exact Or.inl rfl
    | some r => exact Or.inr ⟨r, fun x => (o.bl r hb).2 (by rw [x]; exact hq), rfl⟩
  -- a new request while the other one is deferred is impossible
  have free : ∀ ρ, s.req ρ = none → s.blocked = none := by
    intro ρ hq
    rcases other ρ hq with x | ⟨r, hr, x⟩
    · exact x
    · exfalso
      obtain ⟨ρ', h1, h2⟩ := h.wait r x
      have : ρ' = ρ := by cases r <;> cases ρ <;> cases ρ' <;> simp_all
      subst this
      simp [S.up, hq, upOf] at h2
  cases a with
  | write iov => simp [Act.isFiber] at ha
  | recv caps => simp [Act.isFiber] at ha
  | shutdown => simp [Act.isFiber] at ha
  | trySend iov =>
    have t := trySend_spec o e
    refine ⟨fun f => by rw [t.fib]; exact h.fib f, ?_⟩
    intro ρ hb
    rw [t.blk] at hb
    obtain ⟨ρ', h1, h2⟩ := h.wait ρ hb
    refine ⟨ρ', h1, ?_⟩
    rcases t.bg with ⟨_, b⟩ | ⟨_, b0, _, buf, b⟩
    · simpa [S.up, b] using h2
    · cases ρ' with
      | reader => simpa [S.up, t.rreq] using h2
      | writer => simp [S.up, b, upOf]
  | tryRecv n =>
    have t := tryRecv_spec o e
    refine ⟨fun f => by rw [t.fib]; exact h.fib f, ?_⟩
    intro ρ hb
    rw [t.blk] at hb
    obtain ⟨ρ', h1, h2⟩ := h.wait ρ hb
    refine ⟨ρ', h1, ?_⟩
    rcases t.bg with ⟨_, b, _⟩ | ⟨_, b0, _, _, buf, b⟩
    · simpa [S.up, b] using h2
    · cases ρ' with
      | reader => simpa [S.up, t.rreq] using h2
      | writer => simp [S.up, b, upOf]
  | asyncRead n =>
    simp only [S.step] at e
    have hq : s.req .reader = none := by
      refine Classical.byContradiction fun x => ?_
      unfold S.asyncRead at e
      rw [if_pos (Or.inl (by exact x))] at e
      simp at e
    exact Quiet.act (own_emit o [.rcall .async]) (by exact h.fib) (by simp [S.up, S.emit, hq, upOf]) (by exact free _ hq)
      (frame_asyncRead e) (df_asyncRead e)
  | asyncWrite iov =>
    simp only [S.step] at e
    have hq : s.req .writer = none := by
      refine Classical.byContradiction fun x => ?_
      unfold S.asyncWrite at e
      rw [if_pos (by exact x)] at e
      simp at e
    exact Quiet.act (own_emit o [.call .async iov.flatten]) (by exact h.fib) (by simp [S.up, S.emit, hq, upOf]) (by exact free _ hq)
      (frame_asyncWrite e) (df_asyncWrite e)
  | setHook on => simp only [S.step, Option.some.injEq] at e; subst e; exact ⟨h.fib, h.wait⟩
  | netW f k => simp only [S.step, S.netWDone, h.fib f, Option.some.injEq] at e; subst e; exact h
  | netR f r => simp only [S.step, S.netRDone, h.fib f, Option.some.injEq] at e; subst e; exact h
  | resume f => simp only [S.step, S.resume, h.fib f, Option.some.injEq] at e; subst e; exact h
  | aW ρ k => exact quiet_aWDone o h e
  | aR ρ r => exact quiet_aRDone o h e

end Verif.Tls
