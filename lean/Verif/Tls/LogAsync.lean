import Verif.Tls.LogSync

/-! # Asynchronous reads, and the requests that are in flight -/
namespace Verif.Tls

/-- The state of the rules of reading matches the request. -/
def AR (s : S) : Prop := rst .async s.log = if s.req .reader = none then .idle else .busy []

theorem ar_congr {s s1 : S} (h : AR s) (l : s1.log = s.log) (q : s1.req .reader = none ↔ s.req .reader = none) : AR s1 := by
  unfold AR at h ⊢
  rw [l, h]
  by_cases hq : s.req .reader = none
  · rw [if_pos hq, if_pos (q.2 hq)]
  · rw [if_neg hq, if_neg (fun x => hq (q.1 x))]

theorem ar_emit {s : S} (h : AR s) (l : List Obs) (hl : ∀ o ∈ l, o.rsrc ≠ some .async) : AR (s.emit l) := by
  unfold AR at h ⊢
  rw [show (s.emit l).log = s.log ++ l from rfl, rst_quiet _ _ _ hl]
  exact h

/-- The writer's actions. -/
theorem ar_writer {s s1 : S} (h : AR s) (f : FrameA .writer s s1) : AR s1 := by
  obtain ⟨l, l1, l2⟩ := f.log
  unfold AR at h ⊢
  rw [l1, rst_quiet, h, f.req .reader (by simp)]
  intro o ho
  rcases isA_rsrc (l2 o ho) with x | x
  · simp [x]
  · simp at x

theorem ar_complete {s : S} {q : Req} {n : Nat} {a : List Nat} {res : Except Err Nat} (hq : s.req .reader = some q)
    (hk : q.kind = .read n) (h : rst .async s.log = .busy a)
    (hr : res = .ok a.length ∨ a = [] ∧ ∃ e, res = .error e) : AR (s.complete .reader res) := by
  unfold S.complete
  rw [hq]
  simp only [hk]
  rcases hr with rfl | ⟨rfl, e, rfl⟩ <;> simp [AR, S.emit, S.setReq, rst_append, h, rnext]

theorem ar_startUpW {s s1 : S} (h : AR s) (hq : s.req .reader ≠ none) (e : s.startUpW .reader = some s1) : AR s1 := by
  obtain ⟨q, hq⟩ := Option.ne_none_iff_exists'.1 hq
  unfold S.startUpW at e
  split at e <;> split at e <;> simp only [Option.some.injEq, reduceCtorEq] at e <;> subst e <;>
    refine ar_congr h rfl ?_ <;> simp [S.modReq, S.setReq, hq]

theorem ar_startUpR {s s1 : S} (h : AR s) (hq : s.req .reader ≠ none) (e : s.startUpR .reader = some s1) : AR s1 := by
  obtain ⟨q, hq⟩ := Option.ne_none_iff_exists'.1 hq
  unfold S.startUpR at e
  repeat' split at e
  all_goals simp only [Option.some.injEq, reduceCtorEq] at e
  all_goals (subst e; refine ar_congr h rfl ?_; simp [S.modReq, S.setReq, hq])

theorem AR.busy {s : S} (h : AR s) {q : Req} (hq : s.req .reader = some q) : rst .async s.log = .busy [] := by
  unfold AR at h; rw [hq] at h; simpa using h

theorem ar_handleOp {s s1 : S} {o : Op} {q : Req} {n : Nat} (h : AR s) (hq : s.req .reader = some q) (hk : q.kind = .read n)
    (e : s.handleOp .reader o = some s1) : AR s1 := by
  unfold S.handleOp at e
  split at e
  · split at e
    · have h2 : AR (s.modReq .reader fun q => { q with shouldRead := true }) :=
        ar_congr h rfl (by simp [S.modReq, S.setReq, hq])
      exact ar_startUpW h2 (by simp [S.modReq, S.setReq, hq]) e
    · exact ar_startUpR h (by simp [hq]) e
  · exact ar_startUpW h (by simp [hq]) e
  · simp only [Option.some.injEq] at e; subst e
    exact ar_complete hq hk (h.busy hq) (Or.inr ⟨rfl, _, rfl⟩)
  · simp only [Option.some.injEq] at e; subst e
    exact ar_complete hq hk (h.busy hq) (Or.inl rfl)

theorem ar_asyncRead {s s1 : S} {n : Nat} (h : rst .async s.log = .busy []) (e : s.asyncRead n = some s1) : AR s1 := by
  unfold S.asyncRead at e
  split at e
  · simp at e
  rename_i hq
  have hq : s.req .reader = none := by
    by_cases hh : s.req .reader = none
    · exact hh
    · exact absurd (Or.inl hh) hq
  cases hr : s.e.read n with
  | mk r e1 =>
    rw [hr] at e
    cases r with
    | ok bs =>
      simp only [Option.some.injEq] at e; subst e
      simp [AR, S.emit, rst_append, h, rnext, hq]
    | error o =>
      have h2 : AR ({ s with e := e1 }.setReq .reader (some ⟨.read n, 0, false, .none⟩)) := by
        simpa [AR, S.setReq] using h
      cases o with
      | abrupt =>
        simp only [Option.some.injEq] at e; subst e
        simp [AR, S.emit, rst_append, h, rnext, hq]
      | graceful =>
        simp only [Option.some.injEq] at e; subst e
        simp [AR, S.emit, rst_append, h, rnext, hq]
      | needRead => exact ar_handleOp h2 (setReq_same _ _ _) rfl e
      | needWrite => exact ar_handleOp h2 (setReq_same _ _ _) rfl e

theorem Kind.ok_reader {k : Kind} (h : Kind.ok .reader k) : ∃ n, k = .read n := by
  cases k <;> simp_all [Kind.ok]

theorem ar_roleAction {s s1 : S} {ρ : Role} (o : Own s) (h : AR s) (e : s.roleAction ρ = some s1) : AR s1 := by
  cases ρ with
  | writer => exact ar_writer h (frame_roleAction (o.kq .writer) e)
  | reader =>
    unfold S.roleAction at e
    split at e
    · simp only [Option.some.injEq] at e; subst e; exact h
    rename_i q hq
    obtain ⟨n, hk⟩ := Kind.ok_reader (o.kq .reader q hq)
    rw [hk] at e
    simp only at e
    cases hr : s.e.read n with
    | mk r e1 =>
      rw [hr] at e
      cases r with
      | ok bs =>
        simp only [Option.some.injEq] at e; subst e
        refine ar_complete (q := q) hq hk (a := bs) ?_ (Or.inl rfl)
        simp [S.emit, rst_append, h.busy hq, rnext]
      | error o => exact ar_handleOp (s := { s with e := e1 }) (ar_congr h rfl Iff.rfl) hq hk e

theorem ar_runPending {s s1 : S} (o : Own s) (h : AR s) (e : s.runPending = some s1) : AR s1 := by
  unfold S.runPending at e
  split at e
  · simp only [Option.some.injEq] at e; subst e; exact h
  · rename_i ρ hb
    have h1 : AR { s with blocked := none } := ar_congr h rfl Iff.rfl
    simp only at e
    split at e
    · simp only [Option.some.injEq] at e; subst e; exact h1
    · rename_i q hq
      have hk := o.kq ρ q hq
      split at e
      · cases ρ with
        | writer => exact ar_writer h1 (frame_startUpR e)
        | reader => exact ar_startUpR h1 (by simp [hq]) e
      · split at e
        · rename_i hkd; rw [hkd] at hk; have := Kind.ok_user hk; subst this
          exact ar_writer h1 ((frame_setReq _ _ none).trans (frame_asyncWrite e))
        · rename_i hkd; rw [hkd] at hk; have := Kind.ok_flush hk; subst this
          exact ar_writer h1 ((frame_setReq _ _ none).trans (frame_asyncWrite e))
        · rename_i hkd; rw [hkd] at hk; have := Kind.ok_read hk; subst this
          exact ar_asyncRead (by simpa [S.setReq] using h.busy hq) e

theorem ar_fail {s : S} {ρ : Role} {x : Err} (o : Own s) (h : AR s) : AR (s.complete ρ (.error x)) := by
  cases ρ with
  | writer => exact ar_writer h (frame_complete _ _ _ (o.kq .writer))
  | reader =>
    cases hq : s.req .reader with
    | none => unfold S.complete; rw [hq]; exact h
    | some q =>
      obtain ⟨n, hk⟩ := Kind.ok_reader (o.kq .reader q hq)
      exact ar_complete hq hk (h.busy hq) (Or.inr ⟨rfl, _, rfl⟩)

theorem ar_aWDone {s s1 : S} {ρ : Role} {k : Option Nat} (h : Own s) (a : AR s) (e : s.aWDone ρ k = some s1) : AR s1 := by
  unfold S.aWDone at e
  split at e
  · simp only [Option.some.injEq] at e; subst e; exact a
  rename_i q hq
  have req : ∀ x : Req, (s.setReq ρ (some x)).req .reader = none ↔ s.req .reader = none := by
    intro x; cases ρ <;> simp [S.setReq, hq]
  split at e
  · rename_i buf hu
    have hup : s.up ρ = .wr buf := by simp [S.up, hq, upOf, hu]
    obtain ⟨hrel, hr, hb⟩ := own_releaseQW h hq hu
    obtain ⟨hb1, hb2⟩ := h.bq ρ (by rw [hup]; rfl)
    rw [hup] at hb1 hb2
    simp only [Up.buf] at hb1 hb2
    simp only at e
    split at e
    · split at e
      · simp at e
      · rename_i s2 he
        simp only [Option.some.injEq] at e; subst e
        have o1 := own_emit hrel [.upFail]
        obtain ⟨o2, _⟩ := own_runPending (ρ := ρ) o1 hb he
        refine ar_fail o2 (ar_runPending o1 (ar_emit (ar_congr a ?_ ?_) [.upFail] (by simp [Obs.rsrc])) he)
        · rfl
        · exact req _
    · rename_i k
      have htake : buf.take (k + 1) = s.e.out.take (min (k + 1) buf.length) := by
        obtain ⟨t, ht⟩ := hb2
        rw [← ht, List.take_append, show min (k + 1) buf.length - buf.length = 0 from by omega]
        simp
      have hs := own_sent hrel htake rfl
      split at e
      · simp only [Option.some.injEq] at e; subst e
        refine ar_congr a rfl ?_
        cases ρ <;> simp [S.setReq, hq]
      · split at e
        · simp at e
        · rename_i s2 he
          have o1 := own_congr hs rfl rfl rfl rfl rfl rfl rfl
          obtain ⟨o2, q2, b2, _⟩ := own_runPending (ρ := ρ) o1 hb he
          have a2 := ar_runPending o1 (ar_congr a (by rfl) (by exact req _)) he
          split at e
          · cases ρ with
            | writer => exact ar_writer a2 (frame_startUpR e)
            | reader => exact ar_startUpR a2 (by rw [q2]; simp [S.setReq]) e
          · exact ar_roleAction o2 a2 e
  · simp only [Option.some.injEq] at e; subst e; exact a

theorem ar_aRDone {s s1 : S} {ρ : Role} {r : Rd} (h : Own s) (a : AR s) (e : s.aRDone ρ r = some s1) : AR s1 := by
  unfold S.aRDone at e
  split at e
  · simp only [Option.some.injEq] at e; subst e; exact a
  rename_i q hq
  have req : ∀ x : Req, (s.setReq ρ (some x)).req .reader = none ↔ s.req .reader = none := by
    intro x; cases ρ <;> simp [S.setReq, hq]
  split at e
  · rename_i pos hu
    obtain ⟨hrel, hw, hb⟩ := own_releaseQR h hq hu
    simp only at e
    split at e
    · simp at e
    · rename_i s2 he
      obtain ⟨o2, q2, b2, _⟩ := own_runPending (ρ := ρ) hrel hb he
      have a2 := ar_runPending hrel (ar_congr a (by rfl) (by exact req _)) he
      split at e
      · simp only [Option.some.injEq] at e; subst e; exact ar_fail o2 a2
      · simp only [Option.some.injEq] at e; subst e; exact ar_fail o2 a2
      · split at e
        · simp only [Option.some.injEq] at e; subst e; exact ar_fail o2 a2
        · split at e
          · simp at e
          · exact ar_roleAction (own_commit o2) (ar_congr a2 (by rfl) (by rfl)) e
  · simp only [Option.some.injEq] at e; subst e; exact a

theorem ar_ff {s s1 : S} {f : FId} {cc : Prop} (h : AR s) (k : FrameF cc f s s1) : AR s1 := by
  obtain ⟨l, l1, l2, _⟩ := k.log
  unfold AR at h ⊢
  rw [l1, rst_quiet, h, k.req]
  intro o ho; rcases isF_rsrc (l2 o ho) with x | x <;> simp [x]

theorem ar_step {s s1 : S} {a : Act} (o : Own s) (h : AR s) (e : s.step a = some s1) : AR s1 := by
  cases a with
  | write iov => exact ar_ff (cc := False) h (ff_write e)
  | recv caps => exact ar_ff (cc := False) h (ff_recv e)
  | shutdown => exact ar_ff (cc := False) h (ff_shutdown e)
  | trySend iov =>
    have t := trySend_spec o e
    obtain ⟨l, n, o, d1, d2, d3, d4, d5, d6⟩ := t.dat
    unfold AR at h ⊢
    rw [d1, rst_quiet, h, t.rreq]
    intro x hx
    simp only [List.mem_append, List.mem_singleton, List.mem_map] at hx
    rcases hx with (rfl | ⟨_, _, rfl⟩) | rfl
    · simp [Obs.rsrc]
    · simp [Obs.rsrc]
    · rcases d5 with rfl | ⟨_, e, rfl⟩ <;> simp [Obs.rsrc]
  | tryRecv n =>
    have t := tryRecv_spec o e
    obtain ⟨l, l2, o, d1, d2, d3, d4, _⟩ := t.dat
    unfold AR at h ⊢
    rw [d1, rst_quiet, h, t.rreq]
    intro x hx
    simp only [List.mem_append, List.mem_singleton, List.mem_map] at hx
    rcases hx with ((rfl | ⟨_, _, rfl⟩) | hx) | rfl
    · simp [Obs.rsrc]
    · simp [Obs.rsrc]
    · rcases d3 with rfl | rfl
      · simp at hx
      · simp only [List.mem_singleton] at hx; subst hx; simp [Obs.rsrc]
    · rcases d4 with rfl | ⟨_, e, rfl⟩ <;> simp [Obs.rsrc]
  | asyncRead n =>
    simp only [S.step] at e
    have hq : s.req .reader = none := by
      by_cases hh : s.req .reader = none
      · exact hh
      · exfalso
        unfold S.asyncRead at e
        rw [if_pos (Or.inl (by exact hh))] at e
        simp at e
    refine ar_asyncRead ?_ e
    unfold AR at h
    rw [if_pos hq] at h
    simp [S.emit, rst_append, h, rnext]
  | asyncWrite iov =>
    simp only [S.step] at e
    refine ar_writer ?_ (frame_asyncWrite e)
    unfold AR at h ⊢
    rw [show (s.emit [.call .async iov.flatten]).log = s.log ++ [.call .async iov.flatten] from rfl,
      rst_quiet _ _ _ (by simp [Obs.rsrc])]
    exact h
  | setHook on => simp only [S.step, Option.some.injEq] at e; subst e; exact h
  | netW f k => exact ar_ff (cc := False) h (ff_netWDone o e)
  | netR f r => exact ar_ff (cc := True) h (ff_netRDone o (fun _ => trivial) e)
  | resume f => exact ar_ff (cc := False) h (ff_resume o e)
  | aW ρ k => exact ar_aWDone o h e
  | aR ρ r => exact ar_aRDone o h e

end Verif.Tls
