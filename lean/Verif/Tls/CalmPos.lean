import Verif.Tls.Flush

/-! # Where input is read to, when no request is deferred -/
namespace Verif.Tls

/-- Every read in flight is at the end of the input. -/
structure Pos (s : S) : Prop where
  f : ∀ f p k, s.fib f = .netR p k → p = s.e.fed.length
  q : ∀ ρ q p, s.req ρ = some q → q.up = .rd p → p = s.e.fed.length

theorem Pos.init (script ups hook) : Pos (S.init script ups hook) :=
  ⟨by simp [S.init], by simp [S.init]⟩

/-! ### Fibers -/

abbrev PF (f : FId) (s : S) : Prop := ∀ p k, s.fib f = .netR p k → p = s.e.fed.length

theorem pf_netW (s : S) (f : FId) (k : K) (t : Bool) : PF f (s.netW f k t) := by
  intro p k' h; simp [S.netW, S.setFib] at h

theorem pf_netR (s : S) (f : FId) (k : K) : PF f (s.netR f k) := by
  unfold S.netR
  split
  · intro p k' h; simp [S.setFib] at h
  · intro p k' h; simp [S.setFib] at h; exact h.1.symm

theorem pf_upRead (s : S) (f : FId) (k : K) : PF f (s.upRead f k) := by
  unfold S.upRead; split
  · exact pf_netW _ _ _ _
  · exact pf_netR _ _ _

theorem pf_upWrite (s : S) (f : FId) (k : K) : PF f (s.upWrite f k) := by
  unfold S.upWrite; split
  · intro p k' h; simp [S.setFib] at h
  · exact pf_netW _ _ _ _

theorem pf_idle (s : S) (f : FId) (l : List Obs) : PF f ((s.setFib f .idle).emit l) := by
  intro p k' h; simp [S.setFib, S.emit] at h

theorem pf_wFinish (s : S) (n : Nat) : PF .w (s.wFinish n) := by
  unfold S.wFinish; split
  · exact pf_idle _ _ _
  · exact pf_upWrite _ _ _

theorem pf_wLoop {s s1 : S} {iov : List (List Nat)} (e : s.wLoop iov = some s1) : PF .w s1 := by
  unfold S.wLoop at e
  split at e
  · simp at e
  · simp only at e
    split at e
    · split at e
      · simp at e
      · simp only [Option.some.injEq] at e; subst e; exact pf_wFinish _ _
    · simp only [Option.some.injEq] at e; subst e; exact pf_idle _ _ _
    · simp only [Option.some.injEq] at e; subst e; exact pf_idle _ _ _
    · simp only [Option.some.injEq] at e; subst e; exact pf_upRead _ _ _
    · simp only [Option.some.injEq] at e; subst e; exact pf_upWrite _ _ _

theorem pf_rFail (s : S) (n : Nat) (x : Err) : PF .r (s.rFail n x) := by
  unfold S.rFail; split <;> exact pf_idle _ _ _

theorem pf_rLoop (s : S) (caps : List Nat) (n : Nat) : PF .r (s.rLoop caps n) := by
  unfold S.rLoop
  simp only
  split
  · exact pf_idle _ _ _
  · exact pf_idle _ _ _
  · exact pf_rFail _ _ _
  · split
    · exact pf_idle _ _ _
    · exact pf_upRead _ _ _
  · exact pf_upWrite _ _ _

theorem pf_hNext (s : S) : PF .h s.hNext := by intro p k' h; simp [S.setFib, S.hNext] at h

theorem pf_cont {s s1 : S} {k : K} (e : s.cont k = some s1) : PF k.fid s1 := by
  unfold S.cont at e
  split at e
  · split at e
    · simp only [Option.some.injEq] at e; subst e; exact pf_wFinish _ _
    · exact pf_wLoop e
  · simp only [Option.some.injEq] at e; subst e; exact pf_idle _ _ _
  · simp only [Option.some.injEq] at e; subst e; exact pf_rLoop _ _ _
  · simp only [Option.some.injEq] at e; subst e; exact pf_hNext _

theorem pf_contFail (s : S) (k : K) (x : Err) : PF k.fid (s.contFail k x) := by
  unfold S.contFail
  split
  · exact pf_idle _ _ _
  · exact pf_idle _ _ _
  · exact pf_rFail _ _ _
  · exact pf_hNext _

/-- A step of a fiber. -/
theorem Pos.ff {s s1 : S} {f : FId} {cc : Prop} (h : Pos s) (o : Own s) (k : FrameF cc f s s1) (p : PF f s1)
    (hc : cc → s.rown = none ∨ s.rown = some (.fib f)) : Pos s1 := by
  obtain ⟨bs, f1, f2, f3⟩ := k.fed
  have same : (∀ f', f' ≠ f → (s.fib f').isR = true → s1.e.fed = s.e.fed) ∧
      (∀ ρ, (s.up ρ).isR = true → s1.e.fed = s.e.fed) := by
    rcases f3 with rfl | f3
    · exact ⟨fun _ _ _ => by simpa using f1, fun _ _ => by simpa using f1⟩
    · constructor
      · intro f' hf' hr
        have := (o.rf f').1 hr
        rcases hc f3 with x | x
        · rw [x] at this; simp at this
        · rw [x] at this; simp at this; exact absurd this.symm hf'
      · intro ρ hr
        have := (o.rq ρ).1 hr
        rcases hc f3 with x | x <;> (rw [x] at this; simp at this)
  constructor
  · intro f' p' k' hf'
    by_cases hx : f' = f
    · subst hx; exact p p' k' hf'
    · rw [k.fib f' hx] at hf'
      rw [same.1 f' hx (by rw [hf']; rfl)]
      exact h.f f' p' k' hf'
  · intro ρ q p' hq hu
    rw [k.req] at hq
    rw [same.2 ρ (by simp [S.up, hq, upOf, hu, Up.isR])]
    exact h.q ρ q p' hq hu

theorem pos_netWDone {s s1 : S} {f : FId} {k : Option Nat} (o : Own s) (h : Pos s) (e : s.netWDone f k = some s1) : Pos s1 := by
  refine h.ff o (ff_netWDone (cc := False) o e) ?_ (by simp)
  unfold S.netWDone at e
  split at e
  · rename_i buf c t hf
    have hk : c.ok f := by have := o.kf f; rw [hf] at this; exact this
    split at e
    · simp only [Option.some.injEq] at e; subst e
      rw [← hk.1]; exact pf_contFail _ _ _
    · simp only at e
      split at e
      · simp only [Option.some.injEq] at e; subst e
        intro p k' h; simp [S.setFib] at h
      · split at e
        · simp only [Option.some.injEq] at e; subst e; exact pf_netR _ _ _
        · have := pf_cont e
          rw [hk.1] at this; exact this
  · simp only [Option.some.injEq] at e; subst e; exact h.f f

theorem pos_netRDone {s s1 : S} {f : FId} {r : Rd} (o : Own s) (h : Pos s) (e : s.netRDone f r = some s1) : Pos s1 := by
  refine h.ff o (ff_netRDone (cc := s.rown = some (.fib f)) o ?_ e) ?_ (fun x => Or.inr x)
  · rintro ⟨p, k, hf, _⟩
    exact (o.rf f).1 (by rw [hf]; rfl)
  unfold S.netRDone at e
  split at e
  · rename_i pos c hf
    have hk : c.ok f := by have := o.kf f; rw [hf] at this; exact this
    have fail : ∀ t x, PF f (S.contFail t c x) := by intro t x; rw [← hk.1]; exact pf_contFail _ _ _
    split at e
    · simp only [Option.some.injEq] at e; subst e; exact fail _ _
    · simp only [Option.some.injEq] at e; subst e; exact fail _ _
    · split at e
      · simp only [Option.some.injEq] at e; subst e; exact fail _ _
      · split at e
        · simp at e
        · have := pf_cont e
          rw [hk.1] at this; exact this
  · simp only [Option.some.injEq] at e; subst e; exact h.f f

theorem pos_resume {s s1 : S} {f : FId} (o : Own s) (h : Pos s) (e : s.resume f = some s1) : Pos s1 := by
  refine h.ff o (ff_resume (cc := False) o e) ?_ (by simp)
  unfold S.resume at e
  split at e
  · rename_i k hf
    have hk : k.ok f := by have := o.kf f; rw [hf] at this; exact this
    split at e
    · have := pf_cont e
      rw [hk.1] at this; exact this
    · simp only [Option.some.injEq] at e; subst e; exact h.f f
  · rename_i k hf
    have hk : k.ok f := by have := o.kf f; rw [hf] at this; exact this
    split at e
    · have := pf_cont e
      rw [hk.1] at this; exact this
    · simp only [Option.some.injEq] at e; subst e; exact h.f f
  · split at e
    · simp only [Option.some.injEq] at e; subst e; exact pf_idle _ _ _
    · simp only [Option.some.injEq] at e; subst e; exact h.f f
  · simp only [Option.some.injEq] at e; subst e; exact h.f f

/-! ### Requests -/

abbrev PQ (ρ : Role) (s : S) : Prop := ∀ q p, s.req ρ = some q → q.up = .rd p → p = s.e.fed.length

theorem pq_startUpW {s s1 : S} {ρ : Role} (h : PQ ρ s) (e : s.startUpW ρ = some s1) : PQ ρ s1 := by
  unfold S.startUpW at e
  split at e
  · split at e
    · simp at e
    · simp only [Option.some.injEq] at e; subst e; exact h
  · split at e
    · simp at e
    · simp only [Option.some.injEq] at e; subst e
      intro q p hq hu
      cases hr : s.req ρ with
      | none => simp [S.modReq, S.setReq, hr] at hq
      | some q0 => simp [S.modReq, S.setReq, hr] at hq; subst hq; simp at hu

theorem pq_startUpR {s s1 : S} {ρ : Role} (h : PQ ρ s) (e : s.startUpR ρ = some s1) : PQ ρ s1 := by
  unfold S.startUpR at e
  split at e
  · split at e
    · simp at e
    · simp only [Option.some.injEq] at e; subst e
      intro q p hq hu
      cases hr : s.req ρ with
      | none => simp [S.modReq, S.setReq, hr] at hq
      | some q0 => simp [S.modReq, S.setReq, hr] at hq; subst hq; exact h q0 p hr hu
  · simp only [Option.some.injEq] at e; subst e
    intro q p hq hu
    cases hr : s.req ρ with
    | none => simp [S.modReq, S.setReq, hr] at hq
    | some q0 => simp [S.modReq, S.setReq, hr] at hq; subst hq; simp at hu; exact hu.symm

theorem pq_complete (s : S) (ρ : Role) (x : Except Err Nat) : PQ ρ (s.complete ρ x) := by
  unfold S.complete
  split
  · rename_i hq; intro q p hx; simp [hq] at hx
  · simp only
    split <;> (intro q p hx; simp [S.emit, S.setReq] at hx)

theorem pq_handleOp {s s1 : S} {ρ : Role} {o : Op} (h : PQ ρ s) (e : s.handleOp ρ o = some s1) : PQ ρ s1 := by
  unfold S.handleOp at e
  split at e
  · split at e
    · refine pq_startUpW ?_ e
      intro q p hq hu
      cases hr : s.req ρ with
      | none => simp [S.modReq, S.setReq, hr] at hq
      | some q0 => simp [S.modReq, S.setReq, hr] at hq; subst hq; exact h q0 p hr hu
    · exact pq_startUpR h e
  · exact pq_startUpW h e
  · simp only [Option.some.injEq] at e; subst e; exact pq_complete _ _ _
  · simp only [Option.some.injEq] at e; subst e; exact pq_complete _ _ _

theorem pq_asyncRead {s s1 : S} {n : Nat} (e : s.asyncRead n = some s1) : PQ .reader s1 := by
  unfold S.asyncRead at e
  split at e
  · simp at e
  rename_i hq
  have hq : s.req .reader = none := by
    by_cases hh : s.req .reader = none
    · exact hh
    · exact absurd (Or.inl hh) hq
  have nf : ∀ t : S, t.req = s.req → PQ .reader t := fun t ht q p hx => by simp [ht, hq] at hx
  have h2 : ∀ e1, PQ .reader ({ s with e := e1 }.setReq .reader (some ⟨.read n, 0, false, .none⟩)) := by
    intro e1 q d hx; simp [S.setReq] at hx; subst hx; simp
  cases hr : s.e.read n with
  | mk r e1 =>
    rw [hr] at e
    cases r with
    | ok bs => simp only [Option.some.injEq] at e; subst e; exact nf _ rfl
    | error o =>
      cases o with
      | abrupt => simp only [Option.some.injEq] at e; subst e; exact nf _ rfl
      | graceful => simp only [Option.some.injEq] at e; subst e; exact nf _ rfl
      | needRead => exact pq_handleOp (h2 _) e
      | needWrite => exact pq_handleOp (h2 _) e

theorem pq_asyncWrite {s s1 : S} {iov : List (List Nat)} (e : s.asyncWrite iov = some s1) : PQ .writer s1 := by
  unfold S.asyncWrite at e
  split at e
  · simp at e
  split at e
  · simp at e
  · rename_i p hp
    have h2 : PQ .writer (({ s with e := p.eng }.emit [.enc .async (iov.flatten.take p.written)]).setReq .writer
        (some ⟨.user iov, p.written, false, .none⟩)) := by
      intro q d hx; simp [S.setReq] at hx; subst hx; simp
    simp only at e
    split at e
    · exact pq_startUpW h2 e
    · exact pq_handleOp h2 e

theorem pq_roleAction {s s1 : S} {ρ : Role} (h : s.up ρ = .none) (e : s.roleAction ρ = some s1) : PQ ρ s1 := by
  have no : ∀ t : S, t.req ρ = s.req ρ → PQ ρ t := by
    intro t ht q p hq hu
    rw [ht] at hq
    simp [S.up, hq, upOf, hu] at h
  unfold S.roleAction at e
  split at e
  · simp only [Option.some.injEq] at e; subst e; exact no _ rfl
  rename_i q hq
  have hu : q.up = .none := by simpa [S.up, hq, upOf] using h
  split at e
  · rename_i n hk
    cases hr : s.e.read n with
    | mk r e1 =>
      rw [hr] at e
      cases r with
      | ok bs => simp only [Option.some.injEq] at e; subst e; exact pq_complete _ _ _
      | error o => exact pq_handleOp (s := { s with e := e1 }) (no _ rfl) e
  · simp only [Option.some.injEq] at e; subst e; exact pq_complete _ _ _
  · rename_i iov hk
    split at e
    · simp only [Option.some.injEq] at e; subst e; exact pq_complete _ _ _
    · split at e
      · simp at e
      · rename_i p hp
        have h2 : PQ ρ (({ s with e := p.eng }.emit [.enc .async (iov.flatten.take p.written)]).setReq ρ
            (some { q with written := p.written })) := by
          intro q' d hx hu'; simp [S.setReq] at hx; subst hx; simp [hu] at hu'
        simp only at e
        split at e
        · exact pq_startUpW h2 e
        · exact pq_handleOp h2 e

/-- An action on one request. -/
theorem Pos.fa {s s1 : S} {ρ : Role} (hf : ∀ f p k, s.fib f = .netR p k → p = s.e.fed.length)
    (hq : ∀ r, r ≠ ρ → PQ r s) (k : FrameA ρ s s1) (p : PQ ρ s1) : Pos s1 := by
  constructor
  · intro f p k' h; rw [k.ext.fed]; rw [k.fib] at h; exact hf f p k' h
  · intro r q p' h1 h2
    by_cases hr : r = ρ
    · subst hr; exact p q p' h1 h2
    · rw [k.ext.fed]; rw [k.req r hr] at h1; exact hq r hr q p' h1 h2

theorem runPending_none {s : S} (h : s.blocked = none) : s.runPending = some s := by
  unfold S.runPending; rw [h]

theorem pos_aWDone {s s1 : S} {ρ : Role} {k : Option Nat} (o : Own s) (hb : s.blocked = none) (h : Pos s)
    (e : s.aWDone ρ k = some s1) : Pos s1 := by
  unfold S.aWDone at e
  split at e
  · simp only [Option.some.injEq] at e; subst e; exact h
  rename_i q hq
  split at e
  · rename_i buf hu
    have hx : ∀ t : S, t.e.fed = s.e.fed → t.req = (s.setReq ρ (some { q with up := .none })).req →
        ∀ r, r ≠ ρ → PQ r t := by
      intro t t1 t2 r hr q' p h1 h2
      rw [t1]; rw [t2] at h1
      simp only [S.setReq, if_neg hr] at h1
      exact h.q r q' p h1 h2
    have hok : ∀ t : S, t.req = (s.setReq ρ (some { q with up := .none })).req → ∀ q', t.req ρ = some q' → q'.kind.ok ρ := by
      intro t t2 q' h1
      rw [t2] at h1
      simp [S.setReq] at h1; subst h1; exact o.kq ρ q hq
    simp only at e
    split at e
    · rw [runPending_none (by exact hb)] at e
      simp only [Option.some.injEq] at e; subst e
      exact Pos.fa (by exact h.f) (hx _ (by rfl) (by rfl)) (frame_complete _ _ _ (hok _ (by rfl))) (pq_complete _ _ _)
    · split at e
      · simp only [Option.some.injEq] at e; subst e
        refine ⟨by exact h.f, ?_⟩
        intro r q' p h1 h2
        by_cases hr : r = ρ
        · subst hr; simp [S.setReq] at h1; subst h1; simp at h2
        · simp only [S.setReq, if_neg hr] at h1; exact h.q r q' p h1 h2
      · rw [runPending_none (by exact hb)] at e
        simp only at e
        split at e
        · refine Pos.fa (by exact h.f) (hx _ (by rfl) (by rfl)) (frame_startUpR e) (pq_startUpR ?_ e)
          intro q' p h1 h2; simp [S.setReq] at h1; subst h1; simp at h2
        · refine Pos.fa (by exact h.f) (hx _ (by rfl) (by rfl)) (frame_roleAction (hok _ (by rfl)) e) (pq_roleAction ?_ e)
          simp [S.up, S.setReq, upOf]
  · simp only [Option.some.injEq] at e; subst e; exact h

theorem pos_aRDone {s s1 : S} {ρ : Role} {r : Rd} (o : Own s) (hb : s.blocked = none) (h : Pos s)
    (e : s.aRDone ρ r = some s1) : Pos s1 := by
  unfold S.aRDone at e
  split at e
  · simp only [Option.some.injEq] at e; subst e; exact h
  rename_i q hq
  split at e
  · rename_i pos hu
    have hown : s.rown = some (.req ρ) := (o.rq ρ).1 (by simp [S.up, hq, upOf, hu, Up.isR])
    have hx : ∀ t : S, t.req = (s.setReq ρ (some { q with up := .none })).req →
        ∀ r, r ≠ ρ → PQ r t := by
      intro t t2 r hr q' p h1 h2
      rw [t2] at h1
      simp only [S.setReq, if_neg hr] at h1
      have := (o.rq r).1 (by simp [S.up, h1, upOf, h2, Up.isR])
      rw [hown] at this
      simp at this
      exact absurd this.symm hr
    have hy : ∀ f p k, s.fib f ≠ .netR p k := by
      intro f p k hf
      have := (o.rf f).1 (by rw [hf]; rfl)
      rw [hown] at this
      simp at this
    have hok : ∀ t : S, t.req = (s.setReq ρ (some { q with up := .none })).req → ∀ q', t.req ρ = some q' → q'.kind.ok ρ := by
      intro t t2 q' h1
      rw [t2] at h1
      simp [S.setReq] at h1; subst h1; exact o.kq ρ q hq
    simp only at e
    rw [runPending_none (by exact hb)] at e
    simp only at e
    split at e
    · simp only [Option.some.injEq] at e; subst e
      exact Pos.fa (by intro f p k hf; exact absurd hf (hy f p k)) (hx _ (by rfl)) (frame_complete _ _ _ (hok _ (by rfl))) (pq_complete _ _ _)
    · simp only [Option.some.injEq] at e; subst e
      exact Pos.fa (by intro f p k hf; exact absurd hf (hy f p k)) (hx _ (by rfl)) (frame_complete _ _ _ (hok _ (by rfl))) (pq_complete _ _ _)
    · split at e
      · simp only [Option.some.injEq] at e; subst e
        exact Pos.fa (by intro f p k hf; exact absurd hf (hy f p k)) (hx _ (by rfl)) (frame_complete _ _ _ (hok _ (by rfl))) (pq_complete _ _ _)
      · split at e
        · simp at e
        · refine Pos.fa (by intro f p k hf; exact absurd hf (hy f p k)) (hx _ (by rfl)) (frame_roleAction (hok _ (by rfl)) e) (pq_roleAction ?_ e)
          simp [S.up, S.setReq, upOf]
  · simp only [Option.some.injEq] at e; subst e; exact h

theorem pos_step {s s1 : S} {a : Act} (o : Own s) (hb : s.blocked = none) (h : Pos s) (e : s.step a = some s1) : Pos s1 := by
  have try_ : ∀ t : S, t.fib = s.fib → t.req .reader = s.req .reader → (s.rown ≠ none → t.e.fed = s.e.fed) →
      (t.req .writer = s.req .writer ∨ ∃ q buf, t.req .writer = some q ∧ q.up = .wr buf) → Pos t := by
    intro t t1 t2 t3 t4
    constructor
    · intro f p k hf
      rw [t1] at hf
      rw [t3 (by rw [(o.rf f).1 (by rw [hf]; rfl)]; simp)]
      exact h.f f p k hf
    · intro ρ q p hq hu
      have same : s.req ρ = some q → p = t.e.fed.length := by
        intro hq
        rw [t3 (by rw [(o.rq ρ).1 (by simp [S.up, hq, upOf, hu, Up.isR])]; simp)]
        exact h.q ρ q p hq hu
      cases ρ with
      | reader => exact same (by rw [← t2]; exact hq)
      | writer =>
        rcases t4 with x | ⟨q', buf, x, y⟩
        · exact same (by rw [← x]; exact hq)
        · rw [x] at hq; cases hq; rw [y] at hu; simp at hu
  cases a with
  | write iov =>
    refine h.ff o (ff_write (cc := False) e) ?_ (by simp)
    simp only [S.step] at e
    split at e
    · exact pf_wLoop e
    · simp only [Option.some.injEq] at e; subst e; exact h.f .w
  | recv caps =>
    refine h.ff o (ff_recv (cc := False) e) ?_ (by simp)
    simp only [S.step] at e
    split at e
    · split at e
      · simp at e
      · simp only [Option.some.injEq] at e; subst e; exact pf_rLoop _ _ _
    · simp only [Option.some.injEq] at e; subst e; exact h.f .r
  | shutdown =>
    refine h.ff o (ff_shutdown (cc := False) e) ?_ (by simp)
    simp only [S.step] at e
    split at e
    · split at e
      · simp only [Option.some.injEq] at e; subst e; exact pf_netW _ _ _ _
      · simp only [Option.some.injEq] at e; subst e; exact pf_hNext _
    · simp only [Option.some.injEq] at e; subst e; exact h.f .h
  | trySend iov =>
    have t := trySend_spec o e
    refine try_ _ t.fib t.rreq t.fed ?_
    rcases t.bg with ⟨_, b⟩ | ⟨_, _, _, buf, b⟩
    · exact Or.inl (by rw [b])
    · exact Or.inr ⟨_, buf, b, rfl⟩
  | tryRecv n =>
    have t := tryRecv_spec o e
    refine try_ _ t.fib t.rreq t.fed ?_
    rcases t.bg with ⟨_, b, _⟩ | ⟨_, _, _, _, buf, b⟩
    · exact Or.inl (by rw [b])
    · exact Or.inr ⟨_, buf, b, rfl⟩
  | asyncRead n =>
    simp only [S.step] at e
    exact Pos.fa (by exact h.f) (by intro r _; exact h.q r) (frame_asyncRead e) (pq_asyncRead e)
  | asyncWrite iov =>
    simp only [S.step] at e
    exact Pos.fa (by exact h.f) (by intro r _; exact h.q r) (frame_asyncWrite e) (pq_asyncWrite e)
  | setHook on => simp only [S.step, Option.some.injEq] at e; subst e; exact ⟨h.f, h.q⟩
  | netW f k => exact pos_netWDone o h e
  | netR f r => exact pos_netRDone o h e
  | resume f => exact pos_resume o h e
  | aW ρ k => exact pos_aWDone o hb h e
  | aR ρ r => exact pos_aRDone o hb h e

end Verif.Tls
