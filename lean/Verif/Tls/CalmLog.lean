import Verif.Tls.CalmPos

/-! # Asynchronous writes, when no request is deferred -/
namespace Verif.Tls

/-- The state of the rules of writing matches the request. -/
def awm : Option Req → WSt → Prop
  | some ⟨.user iov, w, _, _⟩, st => GoodIov iov ∧ w ≤ iov.flatten.length ∧ st = .busy iov.flatten (iov.flatten.take w)
  | _, st => st = .idle

abbrev AW (s : S) : Prop := awm (s.req .writer) (wst0 .async s.log)

theorem awm_user {q : Req} {iov : List (List Nat)} {st : WSt} (hk : q.kind = .user iov) :
    awm (some q) st ↔ GoodIov iov ∧ q.written ≤ iov.flatten.length ∧ st = .busy iov.flatten (iov.flatten.take q.written) := by
  obtain ⟨k, w, a, b⟩ := q
  simp only at hk; subst hk; rfl

theorem awm_other {q : Req} {st : WSt} (hk : ∀ iov, q.kind ≠ .user iov) : awm (some q) st ↔ st = .idle := by
  obtain ⟨k, w, a, b⟩ := q
  cases k with
  | user iov => exact absurd rfl (hk iov)
  | flush d => rfl
  | read n => rfl

/-- Only kind and count matter. -/
theorem awm_congr {q q1 : Req} {st : WSt} (h : awm (some q) st) (k : q1.kind = q.kind) (w : q1.written = q.written) :
    awm (some q1) st := by
  obtain ⟨k0, w0, a, b⟩ := q
  obtain ⟨k1, w1, a1, b1⟩ := q1
  simp only at k w; subst k; subst w
  cases k1 <;> exact h

theorem aw_startUpW {s s1 : S} (h : AW s) (e : s.startUpW .writer = some s1) : AW s1 := by
  unfold S.startUpW at e
  split at e
  · split at e
    · simp at e
    · simp only [Option.some.injEq] at e; subst e; exact h
  · split at e
    · simp at e
    · simp only [Option.some.injEq] at e; subst e
      unfold AW
      simp only [S.modReq, S.setReq, if_true]
      cases hr : s.req .writer with
      | none => unfold AW at h; rw [hr] at h; exact h
      | some q0 => unfold AW at h; rw [hr] at h; exact awm_congr h rfl rfl

theorem aw_modReq {s : S} {g : Req → Req} (h : AW s) (hk : ∀ q, (g q).kind = q.kind ∧ (g q).written = q.written) :
    AW (s.modReq .writer g) := by
  unfold AW
  simp only [S.modReq, S.setReq, if_true]
  cases hr : s.req .writer with
  | none => unfold AW at h; rw [hr] at h; exact h
  | some q0 => unfold AW at h; rw [hr] at h; exact awm_congr h (hk q0).1 (hk q0).2

theorem aw_startUpR {s s1 : S} (h : AW s) (e : s.startUpR .writer = some s1) : AW s1 := by
  unfold S.startUpR at e
  split at e
  · split at e
    · simp at e
    · simp only [Option.some.injEq] at e; subst e
      exact aw_modReq (s := { s with blocked := some .writer }) h (by simp)
  · simp only [Option.some.injEq] at e; subst e
    exact aw_modReq (s := { s with rown := some (.req .writer) }) h (by simp)

theorem aw_complete {s : S} {x : Except Err Nat} (h : AW s)
    (hx : ∀ n q, x = .ok n → s.req .writer = some q → n = 0 ∨ n = q.written) : AW (s.complete .writer x) := by
  unfold S.complete
  split
  · exact h
  · rename_i q hq
    unfold AW at h
    rw [hq] at h
    simp only
    split
    · rename_i iov hk
      rw [awm_user hk] at h
      obtain ⟨h1, h2, h3⟩ := h
      show awm ((s.setReq .writer none).req .writer) _
      simp only [S.setReq, if_true, awm, S.emit, wst0_append, h3, List.foldl_cons, List.foldl_nil]
      cases x with
      | error y => simp [wnext0, wnext]
      | ok n =>
        rcases hx n q rfl hq with rfl | hn
        · simp [wnext0]
        · simp only
          cases n with
          | zero => simp [wnext0]
          | succ n =>
            simp only [wnext0, wnext, if_true]
            rw [if_pos (by rw [List.length_take]; omega)]
    · rename_i n hk
      rw [awm_other (by rw [hk]; simp)] at h
      show awm ((s.setReq .writer none).req .writer) _
      simp only [S.setReq, if_true, awm, S.emit]
      rw [wst0_quiet]
      · exact h
      · cases x <;> simp [Obs.wsrc]
    · rename_i hk
      rw [awm_other (by rw [hk]; simp)] at h
      show awm ((s.setReq .writer none).req .writer) _
      simp only [S.setReq, if_true, awm]
      exact h
    · rename_i hk
      rw [awm_other (by rw [hk]; simp)] at h
      show awm ((s.setReq .writer none).req .writer) _
      simp only [S.setReq, if_true, awm, S.emit]
      rw [wst0_quiet]
      · exact h
      · split <;> simp [Obs.wsrc]

theorem aw_handleOp {s s1 : S} {o : Op} (h : AW s) (e : s.handleOp .writer o = some s1) : AW s1 := by
  unfold S.handleOp at e
  split at e
  · split at e
    · exact aw_startUpW (aw_modReq h (by simp)) e
    · exact aw_startUpR h e
  · exact aw_startUpW h e
  · simp only [Option.some.injEq] at e; subst e; exact aw_complete h (by simp)
  · simp only [Option.some.injEq] at e; subst e; exact aw_complete h (by simp_all)

/-- The engine takes a part of the data. -/
theorem aw_pushed {s : S} {iov : List (List Nat)} {p : Push} {q : Req} {e0 : Eng} (hp : push e0 iov = some p) (hg : GoodIov iov)
    (h : wst0 .async s.log = .busy iov.flatten []) (hk : q.kind = .user iov) (hw : q.written = p.written) :
    AW (({ s with e := p.eng }.emit [.enc .async (iov.flatten.take p.written)]).setReq .writer (some q)) := by
  have hp := push_spec hp
  unfold AW
  simp only [S.setReq, if_true]
  rw [awm_user hk]
  refine ⟨hg, by rw [hw]; have := hp.le; omega, ?_⟩
  rw [hw]
  simp only [S.emit, wst0_append, h, List.foldl_cons, List.foldl_nil, wnext0, wnext, if_true, List.nil_append]
  rw [if_pos (List.take_prefix _ _)]

theorem aw_asyncWrite {s s1 : S} {iov : List (List Nat)} (hg : GoodIov iov) (h : wst0 .async s.log = .busy iov.flatten [])
    (e : s.asyncWrite iov = some s1) : AW s1 := by
  unfold S.asyncWrite at e
  split at e
  · simp at e
  split at e
  · simp at e
  · rename_i p hp
    have h2 := aw_pushed (s := s) (q := ⟨.user iov, p.written, false, .none⟩) hp hg h rfl rfl
    simp only at e
    split at e
    · exact aw_startUpW h2 e
    · exact aw_handleOp h2 e

theorem aw_roleAction {s s1 : S} (o : ∀ q, s.req .writer = some q → q.kind.ok .writer) (h : AW s)
    (e : s.roleAction .writer = some s1) : AW s1 := by
  unfold S.roleAction at e
  split at e
  · simp only [Option.some.injEq] at e; subst e; exact h
  rename_i q hq
  split at e
  · rename_i n hk
    have := o q hq
    rw [hk] at this
    simp [Kind.ok] at this
  · rename_i d hk
    simp only [Option.some.injEq] at e; subst e; exact aw_complete h (by simp_all)
  · rename_i iov hk
    split at e
    · simp only [Option.some.injEq] at e; subst e; exact aw_complete h (by simp_all)
    · rename_i hw
      have hw : q.written = 0 := by omega
      split at e
      · simp at e
      · rename_i p hp
        unfold AW at h
        rw [hq, awm_user hk, hw] at h
        have h2 := aw_pushed (s := s) (q := { q with written := p.written }) hp h.1 (by simpa using h.2.2) hk rfl
        simp only at e
        split at e
        · exact aw_startUpW h2 e
        · exact aw_handleOp h2 e

/-- Steps that do not concern the writer. -/
theorem AW.quiet {s s1 : S} (h : AW s) (q : s1.req .writer = s.req .writer)
    (l : ∃ l, s1.log = s.log ++ l ∧ ∀ o ∈ l, o.wsrc ≠ some .async) : AW s1 := by
  obtain ⟨l, l1, l2⟩ := l
  unfold AW at *
  rw [q, l1, wst0_quiet _ _ _ l2]; exact h

theorem AW.fa {s s1 : S} (h : AW s) (k : FrameA .reader s s1) : AW s1 := by
  obtain ⟨l, l1, l2⟩ := k.log
  refine h.quiet (k.req .writer (by simp)) ⟨l, l1, fun o ho => ?_⟩
  rcases isA_wsrc (l2 o ho) with x | x
  · simp [x]
  · simp at x

theorem AW.ff {s s1 : S} {cc : Prop} {f : FId} (h : AW s) (k : FrameF cc f s s1) : AW s1 := by
  obtain ⟨l, l1, l2, _⟩ := k.log
  refine h.quiet (by rw [k.req]) ⟨l, l1, fun o ho => ?_⟩
  rcases isF_wsrc (l2 o ho) with x | x <;> simp [x]

theorem aw_aWDone {s s1 : S} {ρ : Role} {k : Option Nat} (o : Own s) (hb : s.blocked = none) (h : AW s)
    (e : s.aWDone ρ k = some s1) : AW s1 := by
  unfold S.aWDone at e
  split at e
  · simp only [Option.some.injEq] at e; subst e; exact h
  rename_i q hq
  split at e
  · rename_i buf hu
    have hok : ∀ t : S, t.req = (s.setReq ρ (some { q with up := .none })).req → ∀ q', t.req ρ = some q' → q'.kind.ok ρ := by
      intro t t2 q' h1
      rw [t2] at h1
      simp [S.setReq] at h1; subst h1; exact o.kq ρ q hq
    have h0 : ∀ t : S, t.req = (s.setReq ρ (some { q with up := .none })).req → t.log = s.log → AW t := by
      intro t t1 t2
      unfold AW at *
      rw [t1, t2]
      cases ρ with
      | reader => simpa [S.setReq] using h
      | writer => rw [hq] at h; simp only [S.setReq, if_true]; exact awm_congr h rfl rfl
    simp only at e
    split at e
    · rw [runPending_none (by exact hb)] at e
      simp only [Option.some.injEq] at e; subst e
      have h1 : AW (({ s.setReq ρ (some { q with up := .none }) with wown := none } : S).emit [.upFail]) :=
        (h0 ({ s.setReq ρ (some { q with up := .none }) with wown := none } : S) rfl rfl).quiet rfl
          ⟨[.upFail], rfl, by simp [Obs.wsrc]⟩
      cases ρ with
      | reader => exact h1.fa (frame_complete _ _ _ (hok _ (by rfl)))
      | writer => exact aw_complete h1 (by simp)
    · split at e
      · simp only [Option.some.injEq] at e; subst e
        unfold AW at *
        cases ρ with
        | reader => simpa [S.setReq] using h
        | writer => rw [hq] at h; simp only [S.setReq, if_true]; exact awm_congr h rfl rfl
      · rw [runPending_none (by exact hb)] at e
        simp only at e
        split at e
        · cases ρ with
          | reader => exact AW.fa (h0 _ (by rfl) (by rfl)) (frame_startUpR e)
          | writer => exact aw_startUpR (h0 _ (by rfl) (by rfl)) e
        · cases ρ with
          | reader => exact AW.fa (h0 _ (by rfl) (by rfl)) (frame_roleAction (hok _ (by rfl)) e)
          | writer => exact aw_roleAction (hok _ (by rfl)) (h0 _ (by rfl) (by rfl)) e
  · simp only [Option.some.injEq] at e; subst e; exact h

theorem aw_aRDone {s s1 : S} {ρ : Role} {r : Rd} (o : Own s) (hb : s.blocked = none) (h : AW s)
    (e : s.aRDone ρ r = some s1) : AW s1 := by
  unfold S.aRDone at e
  split at e
  · simp only [Option.some.injEq] at e; subst e; exact h
  rename_i q hq
  split at e
  · rename_i pos hu
    have hok : ∀ t : S, t.req = (s.setReq ρ (some { q with up := .none })).req → ∀ q', t.req ρ = some q' → q'.kind.ok ρ := by
      intro t t2 q' h1
      rw [t2] at h1
      simp [S.setReq] at h1; subst h1; exact o.kq ρ q hq
    have h0 : ∀ t : S, t.req = (s.setReq ρ (some { q with up := .none })).req → t.log = s.log → AW t := by
      intro t t1 t2
      unfold AW at *
      rw [t1, t2]
      cases ρ with
      | reader => simpa [S.setReq] using h
      | writer => rw [hq] at h; simp only [S.setReq, if_true]; exact awm_congr h rfl rfl
    have fail : ∀ x, AW (S.complete { s.setReq ρ (some { q with up := .none }) with rown := none } ρ (.error x)) := by
      intro x
      cases ρ with
      | reader => exact AW.fa (h0 _ (by rfl) (by rfl)) (frame_complete _ _ _ (hok _ (by rfl)))
      | writer => exact aw_complete (h0 _ (by rfl) (by rfl)) (by simp)
    simp only at e
    rw [runPending_none (by exact hb)] at e
    simp only at e
    split at e
    · simp only [Option.some.injEq] at e; subst e; exact fail _
    · simp only [Option.some.injEq] at e; subst e; exact fail _
    · split at e
      · simp only [Option.some.injEq] at e; subst e; exact fail _
      · split at e
        · simp at e
        · cases ρ with
          | reader => exact AW.fa (h0 _ (by rfl) (by rfl)) (frame_roleAction (hok _ (by rfl)) e)
          | writer => exact aw_roleAction (hok _ (by rfl)) (h0 _ (by rfl) (by rfl)) e
  · simp only [Option.some.injEq] at e; subst e; exact h

theorem aw_step {s s1 : S} {a : Act} (o : Own s) (hb : s.blocked = none) (hc : Contract s a) (h : AW s)
    (e : s.step a = some s1) : AW s1 := by
  cases a with
  | write iov => exact h.ff (ff_write (cc := False) e)
  | recv caps => exact h.ff (ff_recv (cc := False) e)
  | shutdown => exact h.ff (ff_shutdown (cc := False) e)
  | trySend iov =>
    have t := trySend_spec o e
    obtain ⟨l, n, x, d1, d2, d3, d4, d5, d6⟩ := t.dat
    have hl : ∀ o ∈ ([.call .try_ iov.flatten] ++ l.map (Obs.enc .try_) ++ [x] : List Obs), o.wsrc ≠ some .async := by
      intro m hm
      simp only [List.mem_append, List.mem_singleton, List.mem_map] at hm
      rcases hm with (rfl | ⟨_, _, rfl⟩) | rfl
      · simp [Obs.wsrc]
      · simp [Obs.wsrc]
      · rcases d5 with rfl | ⟨_, _, rfl⟩ <;> simp [Obs.wsrc]
    rcases t.bg with ⟨_, b⟩ | ⟨_, b1, _, buf, b⟩
    · exact h.quiet (by rw [b]) ⟨_, d1, hl⟩
    · unfold AW at *
      rw [b, d1, wst0_quiet _ _ _ hl]
      rw [b1] at h; exact h
  | tryRecv n =>
    have t := tryRecv_spec o e
    obtain ⟨l, l2, x, d1, d2, d3, d4, _⟩ := t.dat
    have hl : ∀ o ∈ ([.rcall .try_] ++ l.map (Obs.dec .try_) ++ l2 ++ [x] : List Obs), o.wsrc ≠ some .async := by
      intro m hm
      simp only [List.mem_append, List.mem_singleton, List.mem_map] at hm
      rcases hm with ((rfl | ⟨_, _, rfl⟩) | hm) | rfl
      · simp [Obs.wsrc]
      · simp [Obs.wsrc]
      · rcases d3 with rfl | rfl
        · simp at hm
        · simp only [List.mem_singleton] at hm; subst hm; simp [Obs.wsrc]
      · rcases d4 with rfl | ⟨_, _, rfl⟩ <;> simp [Obs.wsrc]
    rcases t.bg with ⟨_, b, _⟩ | ⟨_, b1, _, _, buf, b⟩
    · exact h.quiet (by rw [b]) ⟨_, d1, hl⟩
    · unfold AW at *
      rw [b, d1, wst0_quiet _ _ _ hl]
      rw [b1] at h; exact h
  | asyncRead n =>
    simp only [S.step] at e
    have h1 : AW (s.emit [.rcall .async]) := h.quiet rfl ⟨_, rfl, by simp [Obs.wsrc]⟩
    exact h1.fa (frame_asyncRead e)
  | asyncWrite iov =>
    simp only [S.step] at e
    refine aw_asyncWrite hc.2 ?_ e
    unfold AW at h
    rw [hc.1] at h
    have h : wst0 .async s.log = .idle := h
    simp [S.emit, wst0_append, h, wnext0, wnext]
  | setHook on => simp only [S.step, Option.some.injEq] at e; subst e; exact h
  | netW f k => exact h.ff (ff_netWDone (cc := False) o e)
  | netR f r => exact h.ff (ff_netRDone (cc := True) o (fun _ => trivial) e)
  | resume f => exact h.ff (ff_resume (cc := False) o e)
  | aW ρ k => exact aw_aWDone o hb h e
  | aR ρ r => exact aw_aRDone o hb h e

end Verif.Tls
