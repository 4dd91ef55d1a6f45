import Verif.Tls.LogAsync

/-! # Input, background writes, requests, and what a returning write has sent -/
namespace Verif.Tls

/-! ### Input -/

def FedOk (s : S) : Prop := s.e.fed = s.arrived

theorem fed_ff {s s1 : S} {f : FId} {cc : Prop} (h : FedOk s) (k : FrameF cc f s s1) : FedOk s1 := by
  obtain ⟨bs, h1, h2, _⟩ := k.fed
  unfold FedOk at *; rw [h1, h2, h]

theorem fed_q {s s1 : S} (h : FedOk s) (k : FrameQ s s1) : FedOk s1 := by
  obtain ⟨bs, h1, h2⟩ := k.fed
  unfold FedOk at *; rw [h1, h2, h]

theorem fed_step {s s1 : S} {a : Act} (o : Own s) (h : FedOk s) (e : s.step a = some s1) : FedOk s1 := by
  cases a with
  | write iov => exact fed_ff (cc := False) h (ff_write e)
  | recv caps => exact fed_ff (cc := False) h (ff_recv e)
  | shutdown => exact fed_ff (cc := False) h (ff_shutdown e)
  | trySend iov => exact (trySend_spec o e).arr h
  | tryRecv n => exact (tryRecv_spec o e).arr h
  | asyncRead n => exact fed_q h (fq_asyncRead e)
  | asyncWrite iov => exact fed_q h (fq_asyncWrite e)
  | setHook on => simp only [S.step, Option.some.injEq] at e; subst e; exact h
  | netW f k => exact fed_ff (cc := False) h (ff_netWDone o e)
  | netR f r => exact fed_ff (cc := True) h (ff_netRDone o (fun _ => trivial) e)
  | resume f => exact fed_ff (cc := False) h (ff_resume o e)
  | aW ρ k => exact fed_q h (fq_aWDone o e)
  | aR ρ r => exact fed_q h (fq_aRDone o e)

/-! ### Requests -/

/-- Not a background write. -/
def NF (s : S) (ρ : Role) : Prop := ∀ q d, s.req ρ = some q → q.kind ≠ .flush d

/-- A request is in flight or deferred. -/
def Settled (s : S) (ρ : Role) : Prop := ∀ q, s.req ρ = some q → q.up ≠ .none ∨ s.blocked = some ρ

structure Post (ρ : Role) (s s1 : S) : Prop where
  drn : s1.drain = s.drain
  nf : NF s1 ρ
  set : Settled s1 ρ

theorem post_startUpW {s s1 : S} {ρ : Role} (h : NF s ρ) (e : s.startUpW ρ = some s1) : Post ρ s s1 := by
  unfold S.startUpW at e
  split at e
  · split at e
    · simp at e
    · simp only [Option.some.injEq] at e; subst e
      exact ⟨rfl, h, fun q _ => Or.inr rfl⟩
  · split at e
    · simp at e
    · simp only [Option.some.injEq] at e; subst e
      refine ⟨rfl, ?_, ?_⟩
      · intro q d hq
        cases hr : s.req ρ with
        | none => simp [S.modReq, S.setReq, hr] at hq
        | some q0 => simp [S.modReq, S.setReq, hr] at hq; subst hq; exact h q0 d hr
      · intro q hq
        cases hr : s.req ρ with
        | none => simp [S.modReq, S.setReq, hr] at hq
        | some q0 => simp [S.modReq, S.setReq, hr] at hq; subst hq; simp

theorem post_startUpR {s s1 : S} {ρ : Role} (h : NF s ρ) (e : s.startUpR ρ = some s1) : Post ρ s s1 := by
  unfold S.startUpR at e
  split at e
  · split at e
    · simp at e
    · simp only [Option.some.injEq] at e; subst e
      refine ⟨rfl, ?_, fun q _ => Or.inr rfl⟩
      intro q d hq
      cases hr : s.req ρ with
      | none => simp [S.modReq, S.setReq, hr] at hq
      | some q0 => simp [S.modReq, S.setReq, hr] at hq; subst hq; exact h q0 d hr
  · simp only [Option.some.injEq] at e; subst e
    refine ⟨rfl, ?_, ?_⟩
    · intro q d hq
      cases hr : s.req ρ with
      | none => simp [S.modReq, S.setReq, hr] at hq
      | some q0 => simp [S.modReq, S.setReq, hr] at hq; subst hq; exact h q0 d hr
    · intro q hq
      cases hr : s.req ρ with
      | none => simp [S.modReq, S.setReq, hr] at hq
      | some q0 => simp [S.modReq, S.setReq, hr] at hq; subst hq; simp

theorem post_complete {s : S} {ρ : Role} {x : Except Err Nat} (h : NF s ρ) : Post ρ s (s.complete ρ x) := by
  unfold S.complete
  split
  · rename_i hq
    exact ⟨rfl, h, fun q hx => by simp [hq] at hx⟩
  · rename_i q hq
    have nf : NF (s.setReq ρ none) ρ := fun q d hx => by simp [S.setReq] at hx
    have st : Settled (s.setReq ρ none) ρ := fun q hx => by simp [S.setReq] at hx
    simp only
    split
    · exact ⟨rfl, nf, st⟩
    · exact ⟨rfl, nf, st⟩
    · exact ⟨rfl, nf, st⟩
    · rename_i hk; exact absurd hk (h q true hq)

theorem post_handleOp {s s1 : S} {ρ : Role} {o : Op} (h : NF s ρ) (e : s.handleOp ρ o = some s1) : Post ρ s s1 := by
  unfold S.handleOp at e
  split at e
  · split at e
    · have h2 : NF (s.modReq ρ fun q => { q with shouldRead := true }) ρ := by
        intro q d hq
        cases hr : s.req ρ with
        | none => simp [S.modReq, S.setReq, hr] at hq
        | some q0 => simp [S.modReq, S.setReq, hr] at hq; subst hq; exact h q0 d hr
      have p := post_startUpW h2 e
      exact ⟨p.drn, p.nf, p.set⟩
    · exact post_startUpR h e
  · exact post_startUpW h e
  · simp only [Option.some.injEq] at e; subst e; exact post_complete h
  · simp only [Option.some.injEq] at e; subst e; exact post_complete h

theorem post_asyncRead {s s1 : S} {n : Nat} (e : s.asyncRead n = some s1) : Post .reader s s1 := by
  unfold S.asyncRead at e
  split at e
  · simp at e
  rename_i hq
  have hq : s.req .reader = none := by
    by_cases hh : s.req .reader = none
    · exact hh
    · exact absurd (Or.inl hh) hq
  have nf : NF s .reader := fun q d hx => by simp [hq] at hx
  have st : Settled s .reader := fun q hx => by simp [hq] at hx
  cases hr : s.e.read n with
  | mk r e1 =>
    rw [hr] at e
    cases r with
    | ok bs => simp only [Option.some.injEq] at e; subst e; exact ⟨rfl, nf, st⟩
    | error o =>
      have h2 : NF ({ s with e := e1 }.setReq .reader (some ⟨.read n, 0, false, .none⟩)) .reader := by
        intro q d hx; simp [S.setReq] at hx; subst hx; simp
      cases o with
      | abrupt => simp only [Option.some.injEq] at e; subst e; exact ⟨rfl, nf, st⟩
      | graceful => simp only [Option.some.injEq] at e; subst e; exact ⟨rfl, nf, st⟩
      | needRead => have p := post_handleOp h2 e; exact ⟨p.drn, p.nf, p.set⟩
      | needWrite => have p := post_handleOp h2 e; exact ⟨p.drn, p.nf, p.set⟩

theorem post_asyncWrite {s s1 : S} {iov : List (List Nat)} (e : s.asyncWrite iov = some s1) : Post .writer s s1 := by
  unfold S.asyncWrite at e
  split at e
  · simp at e
  split at e
  · simp at e
  · rename_i p hp
    have h2 : NF (({ s with e := p.eng }.emit [.enc .async (iov.flatten.take p.written)]).setReq .writer
        (some ⟨.user iov, p.written, false, .none⟩)) .writer := by
      intro q d hx; simp [S.setReq] at hx; subst hx; simp
    simp only at e
    split at e
    · have p := post_startUpW h2 e; exact ⟨p.drn, p.nf, p.set⟩
    · have p := post_handleOp h2 e; exact ⟨p.drn, p.nf, p.set⟩

theorem post_roleAction {s s1 : S} {ρ : Role} (h : NF s ρ) (e : s.roleAction ρ = some s1) : Post ρ s s1 := by
  unfold S.roleAction at e
  split at e
  · rename_i hq
    simp only [Option.some.injEq] at e; subst e
    exact ⟨rfl, h, fun q hx => by simp [hq] at hx⟩
  rename_i q hq
  split at e
  · rename_i n hk
    cases hr : s.e.read n with
    | mk r e1 =>
      rw [hr] at e
      cases r with
      | ok bs =>
        simp only [Option.some.injEq] at e; subst e
        have p := post_complete (s := { s with e := e1 }.emit [.dec .async bs]) (ρ := ρ) (x := .ok bs.length) h
        exact ⟨p.drn, p.nf, p.set⟩
      | error o =>
        have p := post_handleOp (s := { s with e := e1 }) h e
        exact ⟨p.drn, p.nf, p.set⟩
  · simp only [Option.some.injEq] at e; subst e; exact post_complete h
  · rename_i iov hk
    split at e
    · simp only [Option.some.injEq] at e; subst e; exact post_complete h
    · split at e
      · simp at e
      · rename_i p hp
        have h2 : NF (({ s with e := p.eng }.emit [.enc .async (iov.flatten.take p.written)]).setReq ρ
            (some { q with written := p.written })) ρ := by
          intro q' d hx; simp [S.setReq] at hx; subst hx; exact h q d hq
        simp only at e
        split at e
        · have p := post_startUpW h2 e; exact ⟨p.drn, p.nf, p.set⟩
        · have p := post_handleOp h2 e; exact ⟨p.drn, p.nf, p.set⟩

/-- The requests: background writes are in flight, the flag says whether one is a drain, and every request
is in flight or deferred. -/
structure Reqs (s : S) : Prop where
  fl : ∀ q d, s.req .writer = some q → q.kind = .flush d → q.up.isW = true ∧ q.shouldRead = false
  dr : s.drain = true ↔ ∃ q, s.req .writer = some q ∧ q.kind = .flush true
  st : ∀ ρ, Settled s ρ

theorem Reqs.init (script ups hook) : Reqs (S.init script ups hook) :=
  ⟨by simp [S.init], by simp [S.init], fun ρ q h => by simp [S.init] at h⟩

theorem Reqs.congr {s s1 : S} (h : Reqs s) (q : s1.req = s.req) (d : s1.drain = s.drain) (b : s1.blocked = s.blocked) :
    Reqs s1 := ⟨by rw [q]; exact h.fl, by rw [q, d]; exact h.dr, fun ρ x hx => by rw [b]; exact h.st ρ x (by rw [← q]; exact hx)⟩

/-- `RunPending` while another request's operation has just ended. -/
theorem post_runPending {s s1 : S} (ρ : Role) (o : Own s) (hb : s.blocked ≠ some ρ)
    (hf : ∀ q d, ρ ≠ .writer → s.req .writer = some q → q.kind = .flush d → q.up.isW = true)
    (hst : ∀ ρ', ρ' ≠ ρ → Settled s ρ') (e : s.runPending = some s1) :
    s1.drain = s.drain ∧ (∀ ρ', ρ' ≠ ρ → Settled s1 ρ') ∧
    (∀ q d, ρ ≠ .writer → s1.req .writer = some q → q.kind = .flush d → s.req .writer = some q) ∧
    (∀ q d, ρ ≠ .writer → s.req .writer = some q → q.kind = .flush d → s1.req .writer = some q) := by
  unfold S.runPending at e
  split at e
  · simp only [Option.some.injEq] at e; subst e
    exact ⟨rfl, hst, fun q d _ h _ => h, fun q d _ h _ => h⟩
  rename_i ρ' hb'
  have hne : ρ' ≠ ρ := fun x => hb (by rw [hb', x])
  obtain ⟨hu, hq'⟩ := o.bl ρ' hb'
  obtain ⟨q, hq⟩ := Option.ne_none_iff_exists'.1 hq'
  have nf : NF { s with blocked := none } ρ' := by
    intro q1 d h1 h2
    rw [show ({ s with blocked := none } : S).req = s.req from rfl, hq] at h1
    cases h1
    have hk := o.kq ρ' q hq
    rw [h2] at hk
    have hw := Kind.ok_flush hk; subst hw
    have := hf q d (fun x => hne x.symm) hq h2
    simp only [S.up, hq, upOf] at hu
    rw [hu] at this; simp [Up.isW] at this
  have fin : Post ρ' { s with blocked := none } s1 →
      s1.drain = s.drain ∧ (∀ ρ', ρ' ≠ ρ → Settled s1 ρ') ∧
      (∀ q d, ρ ≠ .writer → s1.req .writer = some q → q.kind = .flush d → s.req .writer = some q) ∧
      (∀ q d, ρ ≠ .writer → s.req .writer = some q → q.kind = .flush d → s1.req .writer = some q) := by
    intro p
    refine ⟨p.drn, ?_, ?_, ?_⟩
    · intro r hr
      have : r = ρ' := by cases r <;> cases ρ <;> cases ρ' <;> simp_all
      subst this; exact p.set
    · intro q1 d hw h1 h2
      have : ρ' = .writer := by cases ρ <;> cases ρ' <;> simp_all
      subst this
      exact absurd h2 (p.nf q1 d h1)
    · intro q1 d hw h1 h2
      have : ρ' = .writer := by cases ρ <;> cases ρ' <;> simp_all
      subst this
      exact absurd h2 (nf q1 d h1)
  simp only at e
  rw [hq] at e
  simp only at e
  split at e
  · exact fin (post_startUpR nf e)
  · have hk := o.kq ρ' q hq
    split at e
    · rename_i hkd; rw [hkd] at hk; have := Kind.ok_user hk; subst this
      have p := post_asyncWrite e; exact fin ⟨p.drn, p.nf, p.set⟩
    · rename_i hkd; rw [hkd] at hk; have := Kind.ok_flush hk; subst this
      have p := post_asyncWrite e; exact fin ⟨p.drn, p.nf, p.set⟩
    · rename_i hkd; rw [hkd] at hk; have := Kind.ok_read hk; subst this
      have p := post_asyncRead e; exact fin ⟨p.drn, p.nf, p.set⟩

theorem NF.reader {s : S} (o : Own s) : NF s .reader := by
  intro q d hq hk
  have := o.kq .reader q hq
  rw [hk] at this
  simp [Kind.ok] at this

/-- After an action on one request, if the other was all right. -/
theorem Reqs.post {s s1 : S} {ρ : Role} (f : FrameA ρ s s1) (p : Post ρ s s1) (hs : ∀ r, r ≠ ρ → Settled s r)
    (hd : s.drain = true ↔ ρ ≠ .writer ∧ ∃ q, s.req .writer = some q ∧ q.kind = .flush true)
    (hf : ρ ≠ .writer → ∀ q d, s.req .writer = some q → q.kind = .flush d → q.up.isW = true ∧ q.shouldRead = false) :
    Reqs s1 := by
  refine ⟨?_, ?_, ?_⟩
  · intro q d h1 h2
    cases ρ with
    | writer => exact absurd h2 (p.nf q d h1)
    | reader => rw [f.req .writer (by simp)] at h1; exact hf (by simp) q d h1 h2
  · rw [p.drn, hd]
    cases ρ with
    | writer =>
      constructor
      · intro x; exact absurd rfl x.1
      · rintro ⟨q, h1, h2⟩; exact absurd h2 (p.nf q true h1)
    | reader => rw [f.req .writer (by simp)]; simp
  · intro r
    by_cases hr : r = ρ
    · subst hr; exact p.set
    · intro q hq
      rw [f.req r hr] at hq
      rcases hs r hr q hq with x | x
      · exact Or.inl x
      · rcases f.blk with b | b
        · exact Or.inr (by rw [b, x])
        · rw [x] at b; simp at b

/-- A background write is over. -/
theorem complete_flush {s : S} {q : Req} {d : Bool} {x : Except Err Nat} (hq : s.req .writer = some q)
    (hk : q.kind = .flush d) : (s.complete .writer x).drain = (s.drain && !d) ∧
      (s.complete .writer x).req .writer = none ∧ (s.complete .writer x).blocked = s.blocked ∧
      (s.complete .writer x).req .reader = s.req .reader := by
  unfold S.complete
  rw [hq]
  cases d <;> simp [hk, S.setReq, S.emit]

theorem Reqs.flushed {s : S} {q : Req} {d : Bool} {x : Except Err Nat} (hq : s.req .writer = some q)
    (hk : q.kind = .flush d) (hs : Settled s .reader) (hd : s.drain = true → d = true) : Reqs (s.complete .writer x) := by
  obtain ⟨c1, c2, c3, c4⟩ := complete_flush (x := x) hq hk
  refine ⟨?_, ?_, ?_⟩
  · intro q d h; simp [c2] at h
  · rw [c1, c2]; cases d <;> simp_all
  · intro ρ
    cases ρ with
    | writer => intro q h; simp [c2] at h
    | reader => intro q h; rw [c4] at h; rw [c3]; exact hs q h

theorem reqs_aWDone {s s1 : S} {ρ : Role} {k : Option Nat} (h : Own s) (a : Reqs s) (e : s.aWDone ρ k = some s1) :
    Reqs s1 := by
  unfold S.aWDone at e
  split at e
  · simp only [Option.some.injEq] at e; subst e; exact a
  rename_i q hq
  split at e
  · rename_i buf hu
    have hup : s.up ρ = .wr buf := by simp [S.up, hq, upOf, hu]
    obtain ⟨hrel, hr, hb⟩ := own_releaseQW h hq hu
    obtain ⟨hb1, hb2⟩ := h.bq ρ (by rw [hup]; rfl)
    rw [hup] at hb1 hb2
    simp only [Up.buf] at hb1 hb2
    -- what is known of the state in which `RunPending` runs
    have pend : ∀ t : S, Own t → t.req = (s.setReq ρ (some { q with up := .none })).req → t.blocked = s.blocked →
        t.drain = s.drain → ∀ s2, t.runPending = some s2 →
        Own s2 ∧ s2.req ρ = some { q with up := .none } ∧ s2.blocked ≠ some ρ ∧ s2.drain = s.drain ∧
        (∀ r, r ≠ ρ → Settled s2 r) ∧
        (∀ q' d, ρ ≠ .writer → s2.req .writer = some q' → q'.kind = .flush d → s.req .writer = some q') ∧
        (∀ q' d, ρ ≠ .writer → s.req .writer = some q' → q'.kind = .flush d → s2.req .writer = some q') := by
      intro t o1 t1 t2 t3 s2 he
      have hb' : t.blocked ≠ some ρ := by rw [t2]; exact hb
      obtain ⟨o2, q2, b2, _⟩ := own_runPending (ρ := ρ) o1 hb' he
      have hreq : ρ ≠ .writer → t.req .writer = s.req .writer := by
        intro hw; rw [t1]; simp only [S.setReq]; rw [if_neg (fun x => hw x.symm)]
      obtain ⟨p1, p2, p3, p4⟩ := post_runPending ρ o1 hb'
        (fun q' d hw h1 h2 => (a.fl q' d (by rw [← hreq hw]; exact h1) h2).1)
        (fun r hr q' hq' => by
          rw [t2]; refine a.st r q' ?_
          rw [t1] at hq'; simpa only [S.setReq, if_neg hr] using hq') he
      refine ⟨o2, by rw [q2, t1]; simp [S.setReq], b2, p1.trans t3, p2, ?_, ?_⟩
      · intro q' d hw h1 h2; rw [← hreq hw]; exact p3 q' d hw h1 h2
      · intro q' d hw h1 h2; exact p4 q' d hw (by rw [hreq hw]; exact h1) h2
    -- and what follows from that
    have fin : ∀ s2 : S, (∀ r, r ≠ ρ → Settled s2 r) → s2.drain = s.drain →
        (∀ q' d, ρ ≠ .writer → s2.req .writer = some q' → q'.kind = .flush d → s.req .writer = some q') →
        (∀ q' d, ρ ≠ .writer → s.req .writer = some q' → q'.kind = .flush d → s2.req .writer = some q') →
        (∀ d, q.kind ≠ .flush d) →
        ∀ s3, FrameA ρ s2 s3 → Post ρ s2 s3 → Reqs s3 := by
      intro s2 p2 p1 p3 p4 hnf s3 f p
      refine Reqs.post f p p2 ?_ ?_
      · rw [p1, a.dr]
        constructor
        · rintro ⟨q', h1, h2⟩
          have hw : ρ ≠ .writer := by
            rintro rfl; rw [hq] at h1; cases h1; exact hnf true h2
          exact ⟨hw, q', p4 q' true hw h1 h2, h2⟩
        · rintro ⟨hw, q', h1, h2⟩
          exact ⟨q', p3 q' true hw h1 h2, h2⟩
      · intro hw q' d h1 h2; exact a.fl q' d (p3 q' d hw h1 h2) h2
    simp only at e
    split at e
    · split at e
      · simp at e
      · rename_i s2 he
        simp only [Option.some.injEq] at e; subst e
        have o1 := own_emit hrel [.upFail]
        obtain ⟨o2, q2, b2, d2, p2, p3, p4⟩ := pend _ o1 rfl rfl rfl s2 he
        by_cases hk : ∃ d, q.kind = .flush d
        · obtain ⟨d, hk⟩ := hk
          have hw : ρ = .writer := by have := h.kq ρ q hq; rw [hk] at this; exact Kind.ok_flush this
          subst hw
          refine Reqs.flushed q2 hk (p2 .reader (by simp)) ?_
          rw [d2, a.dr]; rintro ⟨q', h1, h2⟩; rw [hq] at h1; cases h1; rw [hk] at h2; simpa using h2
        · have hk : ∀ d, q.kind ≠ .flush d := fun d x => hk ⟨d, x⟩
          refine fin s2 p2 d2 p3 p4 hk _ (frame_complete _ _ _ (o2.kq ρ)) (post_complete ?_)
          intro q' d h1 h2; rw [q2] at h1; cases h1; exact hk d h2
    · rename_i k
      have htake : buf.take (k + 1) = s.e.out.take (min (k + 1) buf.length) := by
        obtain ⟨t, ht⟩ := hb2
        rw [← ht, List.take_append, show min (k + 1) buf.length - buf.length = 0 from by omega]
        simp
      have hs := own_sent hrel htake rfl
      split at e
      · simp only [Option.some.injEq] at e; subst e
        refine ⟨?_, ?_, ?_⟩
        · intro q' d h1 h2
          cases ρ with
          | writer =>
            simp [S.setReq] at h1; subst h1
            exact ⟨rfl, (a.fl q d hq h2).2⟩
          | reader => simp [S.setReq] at h1; exact a.fl q' d h1 h2
        · show s.drain = true ↔ _
          rw [a.dr]
          cases ρ with
          | writer => rw [hq]; simp [S.setReq]
          | reader => simp [S.setReq]
        · intro r q' h1
          by_cases hr : r = ρ
          · subst hr; simp [S.setReq] at h1; subst h1; simp
          · simp [S.setReq, hr] at h1; exact a.st r q' h1
      · split at e
        · simp at e
        · rename_i s2 he
          have o1 := own_congr hs rfl rfl rfl rfl rfl rfl rfl
          obtain ⟨o2, q2, b2, d2, p2, p3, p4⟩ := pend _ o1 rfl rfl rfl s2 he
          by_cases hk : ∃ d, q.kind = .flush d
          · obtain ⟨d, hk⟩ := hk
            have hw : ρ = .writer := by have := h.kq ρ q hq; rw [hk] at this; exact Kind.ok_flush this
            subst hw
            have hsr := (a.fl q d hq hk).2
            rw [hsr] at e
            simp only [S.roleAction, q2, hk] at e
            have e : s2.complete .writer (.ok 0) = s1 := by simpa using e
            subst e
            refine Reqs.flushed q2 hk (p2 .reader (by simp)) ?_
            rw [d2, a.dr]; rintro ⟨q', h1, h2⟩; rw [hq] at h1; cases h1; rw [hk] at h2; simpa using h2
          · have hk : ∀ d, q.kind ≠ .flush d := fun d x => hk ⟨d, x⟩
            have nf : NF s2 ρ := by intro q' d h1 h2; rw [q2] at h1; cases h1; exact hk d h2
            split at e
            · exact fin s2 p2 d2 p3 p4 hk _ (frame_startUpR e) (post_startUpR nf e)
            · exact fin s2 p2 d2 p3 p4 hk _ (frame_roleAction (o2.kq ρ) e) (post_roleAction nf e)
  · simp only [Option.some.injEq] at e; subst e; exact a

theorem reqs_aRDone {s s1 : S} {ρ : Role} {r : Rd} (h : Own s) (a : Reqs s) (e : s.aRDone ρ r = some s1) :
    Reqs s1 := by
  unfold S.aRDone at e
  split at e
  · simp only [Option.some.injEq] at e; subst e; exact a
  rename_i q hq
  split at e
  · rename_i pos hu
    obtain ⟨hrel, hw, hb⟩ := own_releaseQR h hq hu
    have hk : ∀ d, q.kind ≠ .flush d := by
      intro d hk
      have hw : ρ = .writer := by have := h.kq ρ q hq; rw [hk] at this; exact Kind.ok_flush this
      subst hw
      have := (a.fl q d hq hk).1
      rw [hu] at this; simp [Up.isW] at this
    simp only at e
    split at e
    · simp at e
    · rename_i s2 he
      obtain ⟨o2, q2, b2, _⟩ := own_runPending (ρ := ρ) hrel hb he
      have q2 : s2.req ρ = some { q with up := .none } := by rw [q2]; simp [S.setReq]
      have hreq : ρ ≠ .writer → (s.setReq ρ (some { q with up := .none })).req .writer = s.req .writer := by
        intro hw; simp only [S.setReq]; rw [if_neg (fun x => hw x.symm)]
      obtain ⟨p1, p2, p3, p4⟩ := post_runPending ρ hrel hb
        (fun q' d hw h1 h2 => (a.fl q' d (by rw [← hreq hw]; exact h1) h2).1)
        (fun r hr q' hq' => by
          refine a.st r q' ?_
          simpa only [S.setReq, if_neg hr] using hq') he
      have p1 : s2.drain = s.drain := p1
      have nf : NF s2 ρ := by intro q' d h1 h2; rw [q2] at h1; cases h1; exact hk d h2
      have fin : ∀ t : S, t.req = s2.req → t.drain = s2.drain → t.blocked = s2.blocked →
          ∀ s3, FrameA ρ t s3 → Post ρ t s3 → Reqs s3 := by
        intro t t1 t2 t3 s3 f p
        refine Reqs.post f p (fun r hr q' hq' => by rw [t3]; exact p2 r hr q' (by rw [← t1]; exact hq')) ?_ ?_
        · rw [t2, p1, a.dr, t1]
          constructor
          · rintro ⟨q', h1, h2⟩
            have hw : ρ ≠ .writer := by
              rintro rfl; rw [hq] at h1; cases h1; exact hk true h2
            exact ⟨hw, q', p4 q' true hw (by rw [hreq hw]; exact h1) h2, h2⟩
          · rintro ⟨hw, q', h1, h2⟩
            exact ⟨q', by rw [← hreq hw]; exact p3 q' true hw h1 h2, h2⟩
        · intro hw q' d h1 h2; rw [t1] at h1; exact a.fl q' d (by rw [← hreq hw]; exact p3 q' d hw h1 h2) h2
      split at e
      · simp only [Option.some.injEq] at e; subst e
        exact fin s2 rfl rfl rfl _ (frame_complete _ _ _ (o2.kq ρ)) (post_complete nf)
      · simp only [Option.some.injEq] at e; subst e
        exact fin s2 rfl rfl rfl _ (frame_complete _ _ _ (o2.kq ρ)) (post_complete nf)
      · split at e
        · simp only [Option.some.injEq] at e; subst e
          exact fin s2 rfl rfl rfl _ (frame_complete _ _ _ (o2.kq ρ)) (post_complete nf)
        · split at e
          · simp at e
          · exact fin _ (by rfl) (by rfl) (by rfl) _ (frame_roleAction (by exact o2.kq ρ) e) (post_roleAction (by exact nf) e)
  · simp only [Option.some.injEq] at e; subst e; exact a

theorem reqs_ff {s s1 : S} {f : FId} {cc : Prop} (h : Reqs s) (k : FrameF cc f s s1) : Reqs s1 :=
  h.congr k.req k.drain k.blk

theorem reqs_step {s s1 : S} {a : Act} (o : Own s) (h : Reqs s) (e : s.step a = some s1) : Reqs s1 := by
  cases a with
  | write iov => exact reqs_ff (cc := False) h (ff_write e)
  | recv caps => exact reqs_ff (cc := False) h (ff_recv e)
  | shutdown => exact reqs_ff (cc := False) h (ff_shutdown e)
  | trySend iov =>
    have t := trySend_spec o e
    rcases t.bg with ⟨b1, b2⟩ | ⟨b1, b2, b3, buf, b4⟩
    · exact h.congr b2 t.drain t.blk
    · refine ⟨?_, ?_, ?_⟩
      · intro q d h1 h2; rw [b4] at h1; cases h1; exact ⟨rfl, rfl⟩
      · rw [t.drain, h.dr, b4, b2]; simp
      · intro ρ q h1
        cases ρ with
        | writer => rw [b4] at h1; cases h1; simp
        | reader => rw [t.blk]; exact h.st .reader q (by rw [← t.rreq]; exact h1)
  | tryRecv n =>
    have t := tryRecv_spec o e
    rcases t.bg with ⟨b1, b2, b3⟩ | ⟨b1, b2, b3, b4, buf, b5⟩
    · exact h.congr b2 b3 t.blk
    · refine ⟨?_, ?_, ?_⟩
      · intro q d h1 h2; rw [b5] at h1; cases h1; exact ⟨rfl, rfl⟩
      · rw [b3, b5]; simp
      · intro ρ q h1
        cases ρ with
        | writer => rw [b5] at h1; cases h1; simp
        | reader => rw [t.blk]; exact h.st .reader q (by rw [← t.rreq]; exact h1)
  | asyncRead n =>
    simp only [S.step] at e
    have p := post_asyncRead e
    refine Reqs.post (frame_asyncRead e) p (fun r _ q hq => h.st r q hq) ?_ (fun _ => h.fl)
    show s.drain = true ↔ _
    rw [h.dr]; simp [S.emit]
  | asyncWrite iov =>
    simp only [S.step] at e
    have p := post_asyncWrite e
    have hq : s.req .writer = none := by
      by_cases hh : s.req .writer = none
      · exact hh
      · exfalso
        unfold S.asyncWrite at e
        rw [if_pos (by exact hh)] at e
        simp at e
    refine Reqs.post (frame_asyncWrite e) p (fun r _ q hq => h.st r q hq) ?_ (fun _ => h.fl)
    show s.drain = true ↔ _
    rw [h.dr]; simp [hq]
  | setHook on => simp only [S.step, Option.some.injEq] at e; subst e; exact h.congr rfl rfl rfl
  | netW f k => exact reqs_ff (cc := False) h (ff_netWDone o e)
  | netR f r => exact reqs_ff (cc := True) h (ff_netRDone o (fun _ => trivial) e)
  | resume f => exact reqs_ff (cc := False) h (ff_resume o e)
  | aW ρ k => exact reqs_aWDone o h e
  | aR ρ r => exact reqs_aRDone o h e

end Verif.Tls
