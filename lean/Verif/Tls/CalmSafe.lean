import Verif.Tls.CalmLog

/-! # No failed CHECK, when no request is deferred and the contract is kept -/
namespace Verif.Tls

/-! ### The vectors that are kept -/

def K.good : K → Prop | .wOp iov _ => GoodIov iov | _ => True

def Fib.good : Fib → Prop
  | .netW _ k _ | .netR _ k | .waitW k | .waitR k => k.good
  | _ => True

abbrev GF (f : FId) (s : S) : Prop := (s.fib f).good

theorem gf_netW (s : S) (f : FId) (k : K) (t : Bool) (h : k.good) : GF f (s.netW f k t) := by
  simpa [GF, S.netW, S.setFib, Fib.good] using h

theorem gf_netR (s : S) (f : FId) (k : K) (h : k.good) : GF f (s.netR f k) := by
  unfold S.netR; split <;> simpa [GF, S.setFib, Fib.good] using h

theorem gf_upRead (s : S) (f : FId) (k : K) (h : k.good) : GF f (s.upRead f k) := by
  unfold S.upRead; split
  · exact gf_netW _ _ _ _ h
  · exact gf_netR _ _ _ h

theorem gf_upWrite (s : S) (f : FId) (k : K) (h : k.good) : GF f (s.upWrite f k) := by
  unfold S.upWrite; split
  · simpa [GF, S.setFib, Fib.good] using h
  · exact gf_netW _ _ _ _ h

theorem gf_idle (s : S) (f : FId) (l : List Obs) : GF f ((s.setFib f .idle).emit l) := by
  simp [GF, S.setFib, S.emit, Fib.good]

theorem gf_wFinish (s : S) (n : Nat) : GF .w (s.wFinish n) := by
  unfold S.wFinish; split
  · exact gf_idle _ _ _
  · exact gf_upWrite _ _ _ trivial

theorem gf_wLoop {s s1 : S} {iov : List (List Nat)} (h : GoodIov iov) (e : s.wLoop iov = some s1) : GF .w s1 := by
  unfold S.wLoop at e
  split at e
  · simp at e
  · simp only at e
    split at e
    · split at e
      · simp at e
      · simp only [Option.some.injEq] at e; subst e; exact gf_wFinish _ _
    · simp only [Option.some.injEq] at e; subst e; exact gf_idle _ _ _
    · simp only [Option.some.injEq] at e; subst e; exact gf_idle _ _ _
    · simp only [Option.some.injEq] at e; subst e; exact gf_upRead _ _ _ h
    · simp only [Option.some.injEq] at e; subst e; exact gf_upWrite _ _ _ h

theorem gf_cont {s s1 : S} {k : K} (hk : k.fid = .w) (h : k.good) (e : s.cont k = some s1) : GF .w s1 := by
  unfold S.cont at e
  split at e
  · split at e
    · simp only [Option.some.injEq] at e; subst e; exact gf_wFinish _ _
    · exact gf_wLoop h e
  · simp only [Option.some.injEq] at e; subst e; exact gf_idle _ _ _
  · simp [K.fid] at hk
  · simp [K.fid] at hk

theorem gf_contFail (s : S) {k : K} (hk : k.fid = .w) (x : Err) : GF .w (s.contFail k x) := by
  unfold S.contFail
  split
  · exact gf_idle _ _ _
  · exact gf_idle _ _ _
  · simp [K.fid] at hk
  · simp [K.fid] at hk

theorem gf_netWDone {s s1 : S} {k : Option Nat} (o : Own s) (h : GF .w s) (e : s.netWDone .w k = some s1) : GF .w s1 := by
  unfold S.netWDone at e
  split at e
  · rename_i buf c t hf
    have hk : c.ok .w := by have := o.kf .w; rw [hf] at this; exact this
    have hg : c.good := by simpa [GF, hf, Fib.good] using h
    split at e
    · simp only [Option.some.injEq] at e; subst e; exact gf_contFail _ hk.1 _
    · simp only at e
      split at e
      · simp only [Option.some.injEq] at e; subst e
        simpa [GF, S.setFib, Fib.good] using hg
      · split at e
        · simp only [Option.some.injEq] at e; subst e; exact gf_netR _ _ _ hg
        · exact gf_cont hk.1 hg e
  · simp only [Option.some.injEq] at e; subst e; exact h

theorem gf_netRDone {s s1 : S} {r : Rd} (o : Own s) (h : GF .w s) (e : s.netRDone .w r = some s1) : GF .w s1 := by
  unfold S.netRDone at e
  split at e
  · rename_i pos c hf
    have hk : c.ok .w := by have := o.kf .w; rw [hf] at this; exact this
    have hg : c.good := by simpa [GF, hf, Fib.good] using h
    split at e
    · simp only [Option.some.injEq] at e; subst e; exact gf_contFail _ hk.1 _
    · simp only [Option.some.injEq] at e; subst e; exact gf_contFail _ hk.1 _
    · split at e
      · simp only [Option.some.injEq] at e; subst e; exact gf_contFail _ hk.1 _
      · split at e
        · simp at e
        · exact gf_cont hk.1 hg e
  · simp only [Option.some.injEq] at e; subst e; exact h

theorem gf_resume {s s1 : S} (o : Own s) (h : GF .w s) (e : s.resume .w = some s1) : GF .w s1 := by
  unfold S.resume at e
  split at e
  · rename_i c hf
    have hk : c.ok .w := by have := o.kf .w; rw [hf] at this; exact this
    have hg : c.good := by simpa [GF, hf, Fib.good] using h
    split at e
    · exact gf_cont hk.1 hg e
    · simp only [Option.some.injEq] at e; subst e; exact h
  · rename_i c hf
    have hk : c.ok .w := by have := o.kf .w; rw [hf] at this; exact this
    have hg : c.good := by simpa [GF, hf, Fib.good] using h
    split at e
    · exact gf_cont hk.1 hg e
    · simp only [Option.some.injEq] at e; subst e; exact h
  · split at e
    · simp only [Option.some.injEq] at e; subst e; exact gf_idle _ _ _
    · simp only [Option.some.injEq] at e; subst e; exact h
  · simp only [Option.some.injEq] at e; subst e; exact h

theorem gf_step {s s1 : S} {a : Act} (o : Own s) (hc : Contract s a) (h : GF .w s) (e : s.step a = some s1) : GF .w s1 := by
  have ff : ∀ {f cc}, f ≠ .w → FrameF cc f s s1 → GF .w s1 := by
    intro f cc hf k
    unfold GF at *
    rw [k.fib .w (fun x => hf x.symm)]; exact h
  cases a with
  | write iov =>
    simp only [S.step] at e
    split at e
    · exact gf_wLoop hc e
    · simp only [Option.some.injEq] at e; subst e; exact h
  | recv caps => exact ff (by simp) (ff_recv (cc := False) e)
  | shutdown => exact ff (by simp) (ff_shutdown (cc := False) e)
  | trySend iov => unfold GF at *; rw [(trySend_spec o e).fib]; exact h
  | tryRecv n => unfold GF at *; rw [(tryRecv_spec o e).fib]; exact h
  | asyncRead n => unfold GF at *; rw [(fq_asyncRead e).fib]; exact h
  | asyncWrite iov => unfold GF at *; rw [(fq_asyncWrite e).fib]; exact h
  | setHook on => simp only [S.step, Option.some.injEq] at e; subst e; exact h
  | netW f k =>
    by_cases hf : f = .w
    · subst hf; exact gf_netWDone o h e
    · exact ff hf (ff_netWDone (cc := False) o e)
  | netR f r =>
    by_cases hf : f = .w
    · subst hf; exact gf_netRDone o h e
    · exact ff hf (ff_netRDone (cc := True) o (fun _ => trivial) e)
  | resume f =>
    by_cases hf : f = .w
    · subst hf; exact gf_resume o h e
    · exact ff hf (ff_resume (cc := False) o e)
  | aW ρ k => unfold GF at *; rw [(fq_aWDone o e).fib]; exact h
  | aR ρ r => unfold GF at *; rw [(fq_aRDone o e).fib]; exact h

/-! ### Nothing crashes -/

theorem wLoop_some (s : S) {iov : List (List Nat)} (h : GoodIov iov) : ∃ s1, s.wLoop iov = some s1 := by
  obtain ⟨p, hp⟩ := push_some (e := s.e) h.2
  unfold S.wLoop
  rw [hp]
  simp only
  split
  · rename_i ho
    rw [if_neg]
    · exact ⟨_, rfl⟩
    · have := (push_spec hp).pos ho (flatten_ne h); omega
  · exact ⟨_, rfl⟩
  · exact ⟨_, rfl⟩
  · exact ⟨_, rfl⟩
  · exact ⟨_, rfl⟩

theorem cont_some (s : S) {k : K} (h : k.good) : ∃ s1, s.cont k = some s1 := by
  unfold S.cont
  split
  · split
    · exact ⟨_, rfl⟩
    · exact wLoop_some _ h
  · exact ⟨_, rfl⟩
  · exact ⟨_, rfl⟩
  · exact ⟨_, rfl⟩

theorem good_other {s : S} (o : Own s) (h : GF .w s) (f : FId) : GF f s := by
  by_cases hf : f = .w
  · subst hf; exact h
  · have := o.kf f
    have aux : ∀ k : K, k.fid = f → k.good := by
      intro k hk
      cases k with
      | wOp iov n => exact absurd hk.symm hf
      | _ => trivial
    unfold GF
    revert this
    cases s.fib f <;> simp only [Fib.kOk, Fib.good]
    · intro _; trivial
    · intro x; exact aux _ x.1
    · intro x; exact aux _ x.1
    · intro x; exact aux _ x.1
    · intro x; exact aux _ x.1
    · intro _; trivial

theorem netWDone_some {s : S} (f : FId) (k : Option Nat) (h : GF f s) : ∃ s1, s.netWDone f k = some s1 := by
  unfold S.netWDone
  split
  · rename_i buf c t hf
    have hg : c.good := by simpa [GF, hf, Fib.good] using h
    split
    · exact ⟨_, rfl⟩
    · simp only
      split
      · exact ⟨_, rfl⟩
      · split
        · exact ⟨_, rfl⟩
        · exact cont_some _ hg
  · exact ⟨_, rfl⟩

theorem netRDone_some {s : S} (f : FId) (r : Rd) (h : GF f s) (p : Pos s) : ∃ s1, s.netRDone f r = some s1 := by
  unfold S.netRDone
  split
  · rename_i pos c hf
    have hg : c.good := by simpa [GF, hf, Fib.good] using h
    split
    · exact ⟨_, rfl⟩
    · exact ⟨_, rfl⟩
    · split
      · exact ⟨_, rfl⟩
      · rw [if_neg (by simp [p.f f pos c hf])]
        exact cont_some _ hg
  · exact ⟨_, rfl⟩

theorem resume_some {s : S} (f : FId) (h : GF f s) : ∃ s1, s.resume f = some s1 := by
  unfold S.resume
  split
  · rename_i c hf
    have hg : c.good := by simpa [GF, hf, Fib.good] using h
    split
    · exact cont_some _ hg
    · exact ⟨_, rfl⟩
  · rename_i c hf
    have hg : c.good := by simpa [GF, hf, Fib.good] using h
    split
    · exact cont_some _ hg
    · exact ⟨_, rfl⟩
  · split <;> exact ⟨_, rfl⟩
  · exact ⟨_, rfl⟩

theorem startUpW_some {s : S} {ρ : Role} (hb : s.blocked = none) (ho : s.e.out ≠ []) : ∃ s1, s.startUpW ρ = some s1 := by
  unfold S.startUpW
  split
  · rw [if_neg (by simp [hb])]; exact ⟨_, rfl⟩
  · rw [if_neg ho]; exact ⟨_, rfl⟩

theorem startUpR_some {s : S} {ρ : Role} (hb : s.blocked = none) : ∃ s1, s.startUpR ρ = some s1 := by
  unfold S.startUpR
  split
  · rw [if_neg (by simp [hb])]; exact ⟨_, rfl⟩
  · exact ⟨_, rfl⟩

theorem handleOp_some {s : S} {ρ : Role} {o : Op} (hb : s.blocked = none) (ho : o = .needWrite → s.e.out ≠ []) :
    ∃ s1, s.handleOp ρ o = some s1 := by
  unfold S.handleOp
  split
  · split
    · rename_i hx; exact startUpW_some (by exact hb) (by exact hx)
    · exact startUpR_some hb
  · exact startUpW_some hb (ho rfl)
  · exact ⟨_, rfl⟩
  · exact ⟨_, rfl⟩

theorem asyncRead_some {s : S} {n : Nat} (hb : s.blocked = none) (hq : s.req .reader = none) (hn : 0 < n) :
    ∃ s1, s.asyncRead n = some s1 := by
  unfold S.asyncRead
  rw [if_neg (by simp [hq]; omega)]
  cases hr : s.e.read n with
  | mk r e1 =>
    have hs := read_spec hr
    cases r with
    | ok bs => exact ⟨_, rfl⟩
    | error o =>
      obtain ⟨_, _, _, h4, _⟩ := hs
      cases o with
      | abrupt => exact ⟨_, rfl⟩
      | graceful => exact ⟨_, rfl⟩
      | needRead => exact handleOp_some (by exact hb) (by simp)
      | needWrite => exact handleOp_some (by exact hb) (by exact h4)

theorem pushed_some {s : S} {ρ : Role} {q : Req} {iov : List (List Nat)} (hb : s.blocked = none) (hg : GoodIov iov) {p : Push}
    (hp : push s.e iov = some p) :
    ∃ s1, (match p.op with
      | none => (({ s with e := p.eng }.emit [.enc .async (iov.flatten.take p.written)]).setReq ρ (some q)).startUpW ρ
      | some o => (({ s with e := p.eng }.emit [.enc .async (iov.flatten.take p.written)]).setReq ρ (some q)).handleOp ρ o)
        = some s1 := by
  have hs := push_spec hp
  split
  · rename_i ho
    exact startUpW_some (by exact hb) (by exact hs.out ho (flatten_ne hg))
  · rename_i o ho
    refine handleOp_some (by exact hb) ?_
    intro hx
    exact hs.nw (by rw [ho, hx])

theorem asyncWrite_some {s : S} {iov : List (List Nat)} (hb : s.blocked = none) (hq : s.req .writer = none) (hg : GoodIov iov) :
    ∃ s1, s.asyncWrite iov = some s1 := by
  obtain ⟨p, hp⟩ := push_some (e := s.e) hg.2
  unfold S.asyncWrite
  rw [if_neg (by simp [hq]), hp]
  exact pushed_some hb hg hp

theorem roleAction_some {s : S} {ρ : Role} (hb : s.blocked = none)
    (hg : ∀ q iov, s.req ρ = some q → q.kind = .user iov → GoodIov iov) : ∃ s1, s.roleAction ρ = some s1 := by
  unfold S.roleAction
  split
  · exact ⟨_, rfl⟩
  rename_i q hq
  split
  · rename_i n hk
    cases hr : s.e.read n with
    | mk r e1 =>
      have hs := read_spec hr
      cases r with
      | ok bs => exact ⟨_, rfl⟩
      | error o =>
        obtain ⟨_, _, _, h4, _⟩ := hs
        exact handleOp_some (by exact hb) (by exact h4)
  · exact ⟨_, rfl⟩
  · rename_i iov hk
    split
    · exact ⟨_, rfl⟩
    · have hg := hg q iov hq hk
      obtain ⟨p, hp⟩ := push_some (e := s.e) hg.2
      rw [hp]
      exact pushed_some hb hg hp

/-- The vectors of an asynchronous write. -/
theorem AW.good {s : S} (o : Own s) (h : AW s) {ρ : Role} {q : Req} {iov : List (List Nat)} (hq : s.req ρ = some q)
    (hk : q.kind = .user iov) : GoodIov iov := by
  have := o.kq ρ q hq
  rw [hk] at this
  have := Kind.ok_user this; subst this
  unfold AW at h
  rw [hq, awm_user hk] at h
  exact h.1

theorem aWDone_some {s : S} (ρ : Role) (k : Option Nat) (o : Own s) (hb : s.blocked = none) (h : AW s) :
    ∃ s1, s.aWDone ρ k = some s1 := by
  unfold S.aWDone
  split
  · exact ⟨_, rfl⟩
  rename_i q hq
  split
  · rename_i buf hu
    simp only
    split
    · rw [runPending_none (by exact hb)]; exact ⟨_, rfl⟩
    · split
      · exact ⟨_, rfl⟩
      · rw [runPending_none (by exact hb)]
        simp only
        split
        · exact startUpR_some (by exact hb)
        · refine roleAction_some (by exact hb) ?_
          intro q' iov h1 h2
          simp [S.setReq] at h1; subst h1
          exact h.good o hq h2
  · exact ⟨_, rfl⟩

theorem aRDone_some {s : S} (ρ : Role) (r : Rd) (o : Own s) (hb : s.blocked = none) (h : AW s) (p : Pos s) :
    ∃ s1, s.aRDone ρ r = some s1 := by
  unfold S.aRDone
  split
  · exact ⟨_, rfl⟩
  rename_i q hq
  split
  · rename_i pos hu
    simp only
    rw [runPending_none (by exact hb)]
    simp only
    split
    · exact ⟨_, rfl⟩
    · exact ⟨_, rfl⟩
    · split
      · exact ⟨_, rfl⟩
      · rw [if_neg (by have := p.q ρ q pos hq hu; exact fun x => x this)]
        refine roleAction_some (by exact hb) ?_
        intro q' iov h1 h2
        simp [S.setReq] at h1; subst h1
        exact h.good o hq h2
  · exact ⟨_, rfl⟩

theorem tsLoop_some (fuel : Nat) : ∀ (s : S) (iov : List (List Nat)) (sent : Nat), [] ∉ iov →
    ∃ x, S.tsLoop fuel s iov sent = some x := by
  induction fuel with
  | zero => intro s iov sent _; exact ⟨_, rfl⟩
  | succ fuel ih =>
    intro s iov sent hi
    rw [S.tsLoop]
    split
    · exact ⟨_, rfl⟩
    split
    · exact ⟨_, rfl⟩
    · exact ⟨_, rfl⟩
    · rename_i s1 _
      simp only
      split
      · exact ⟨_, rfl⟩
      · have h1 : [] ∉ iov.dropWhile (·.isEmpty) := fun h => hi ((List.dropWhile_sublist _).subset h)
        obtain ⟨p, hp⟩ := push_some (e := s1.e) h1
        rw [hp]
        simp only
        have hs := push_spec hp
        obtain ⟨iov2, a1, a2, a3⟩ := advance_spec (iov.dropWhile (·.isEmpty)) p.written (by have := hs.le; omega)
        rw [a1]
        simp only
        split
        · exact ih _ _ _ (a3 h1)
        · exact ih _ _ _ (a3 h1)
        · split
          · exact ⟨_, rfl⟩
          · split
            · exact ih _ _ _ (a3 h1)
            · exact ⟨_, rfl⟩
        · exact ⟨_, rfl⟩
        · exact ⟨_, rfl⟩

theorem startFlush_some {s : S} {d : Bool} (hq : s.req .writer = none) (hw : s.wown = none) (ho : s.e.out ≠ []) :
    ∃ s1, s.startFlush d = some s1 := by
  unfold S.startFlush
  rw [if_neg (by simp [hq])]
  unfold S.startUpW
  simp only [S.setReq, hw]
  rw [if_neg ho]
  exact ⟨_, rfl⟩

/-- While the write flag is clear there is no request of the writer. -/
theorem no_writer {s : S} (o : Own s) (hr : Reqs s) (hn : NoAsyncWrite s) (hw : s.wown = none) : s.req .writer = none := by
  cases hq : s.req .writer with
  | none => rfl
  | some q =>
    exfalso
    obtain ⟨k, w, sr, up⟩ := q
    cases k with
    | user iov => unfold NoAsyncWrite at hn; rw [hq] at hn; exact hn
    | read n => have := o.kq _ _ hq; simp [Kind.ok] at this
    | flush d =>
      have := (hr.fl _ d hq rfl).1
      have := (o.wq .writer).1 (by simpa [S.up, hq, upOf] using this)
      rw [hw] at this; simp at this

theorem trySend_some {s : S} {iov : List (List Nat)} (o : Own s) (hr : Reqs s) (hn : NoAsyncWrite s) (hg : [] ∉ iov) :
    ∃ s1, s.trySend iov = some s1 := by
  unfold S.trySend
  simp only
  by_cases h0 : total iov = 0
  · rw [if_pos h0]; exact ⟨_, rfl⟩
  rw [if_neg h0]
  by_cases hw : s.wown = none
  · rw [if_neg (by simpa [S.emit] using hw)]
    obtain ⟨⟨s2, sent, st⟩, hx⟩ := tsLoop_some ((s.emit [.call .try_ iov.flatten]).e.script.length + 2)
      (s.emit [.call .try_ iov.flatten]) iov 0 hg
    have t := tsLoop_spec _ _ _ _ _ _ _ (own_emit o [.call .try_ iov.flatten]) hw hx
    rw [hx]
    simp only
    have hq := no_writer o hr hn hw
    split
    · by_cases hc : sent = total iov ∧ s2.e.out ≠ []
      · rw [if_pos hc]
        obtain ⟨s3, h3⟩ := startFlush_some (s := s2) (d := false)
          (by rw [t.2.1.req]; exact hq) (by rw [t.2.1.wown]; exact hw) hc.2
        rw [h3]; exact ⟨_, rfl⟩
      · rw [if_neg hc]; exact ⟨_, rfl⟩
    · split <;> exact ⟨_, rfl⟩
  · rw [if_pos (by simpa [S.emit] using hw)]; exact ⟨_, rfl⟩

theorem trLoop_some (fuel : Nat) : ∀ (s : S) (n got : Nat), Own s → (s.wown = none → s.req .writer = none) →
    ∃ x, S.trLoop fuel s n got = some x := by
  induction fuel with
  | zero => intro s n got _ _; exact ⟨_, rfl⟩
  | succ fuel ih =>
    intro s n got h hq
    cases n with
    | zero => exact ⟨_, rfl⟩
    | succ n =>
      rw [S.trLoop]
      cases hr : s.e.read (n + 1) with
      | mk r e1 =>
        have hs := read_spec hr
        have x2 := own_ext h hs.1
        cases r with
        | ok bs => exact ih _ _ _ (own_emit x2 [.dec .try_ bs]) hq
        | error o =>
          have main : ∀ o', ∃ x, (if s.wown ≠ none then some (({ s with e := e1 } : S), got, some (if s.drain then Err.again else .busy))
              else match (if e1.out = [] then (.ok true, ({ s with e := e1 } : S)) else S.flushTry { s with e := e1 }) with
                | (.error .again, s2) =>
                  match s2.startFlush true with
                  | none => none
                  | some s3 => some (s3, got, some .again)
                | (.error e, s2) => some (s2, got, some e)
                | (.ok false, s2) =>
                  match s2.startFlush true with
                  | none => none
                  | some s3 => some (s3, got, some .again)
                | (.ok true, s2) =>
                  if o' = Op.needWrite then S.trLoop fuel s2 (n + 1) got
                  else if s.rown ≠ none then some (s2, got, some .busy)
                  else match s2.fillTry with
                  | (.ok _, s3) => S.trLoop fuel s3 (n + 1) got
                  | (.error .again, s3) => some (s3.emit [.empty], got, some .again)
                  | (.error e, s3) => some (s3, got, some e)) = some x := by
            intro o'
            by_cases hw : s.wown = none
            · rw [if_neg (by simp [hw])]
              cases hfl : (if e1.out = [] then ((.ok true, ({ s with e := e1 } : S)) : Except Err Bool × S)
                  else S.flushTry { s with e := e1 }) with
              | mk r s2 =>
                obtain ⟨a1, a2, a3, a4, a5, a6, a7, a8, a9, a10, a11, a12, a13⟩ := flushOpt_spec x2 hw hfl
                have q2 : s2.req .writer = none := by rw [a2.req]; exact hq hw
                have w2 : s2.wown = none := by rw [a2.wown]; exact hw
                cases r with
                | error x =>
                  rcases (a13 x rfl).2 with rfl | rfl
                  · obtain ⟨s3, h3⟩ := startFlush_some (d := true) q2 w2 (a13 _ rfl).1
                    simp only [h3]; exact ⟨_, rfl⟩
                  · exact ⟨_, rfl⟩
                | ok b =>
                  cases b with
                  | false =>
                    obtain ⟨s3, h3⟩ := startFlush_some (d := true) q2 w2 (a12 rfl)
                    simp only [h3]; exact ⟨_, rfl⟩
                  | true =>
                    simp only
                    split
                    · exact ih _ _ _ a1 (fun _ => q2)
                    · split
                      · exact ⟨_, rfl⟩
                      · cases hfi : s2.fillTry with
                        | mk r4 s4 =>
                          obtain ⟨d1, d2, _⟩ := fillTry_spec a1 hfi
                          cases r4 with
                          | ok u => exact ih _ _ _ d1 (fun _ => by rw [d2.req]; exact q2)
                          | error x => cases x <;> exact ⟨_, rfl⟩
            · rw [if_pos hw]; exact ⟨_, rfl⟩
          cases o with
          | abrupt => exact ⟨_, rfl⟩
          | graceful => exact ⟨_, rfl⟩
          | needRead => exact main .needRead
          | needWrite => exact main .needWrite

theorem tryRecv_some {s : S} (n : Nat) (o : Own s) (hr : Reqs s) (hn : NoAsyncWrite s) : ∃ s1, s.tryRecv n = some s1 := by
  unfold S.tryRecv
  simp only
  split
  · exact ⟨_, rfl⟩
  · obtain ⟨⟨s2, got, st⟩, hx⟩ := trLoop_some ((s.emit [.rcall .try_]).e.script.length + 2) (s.emit [.rcall .try_]) n 0
      (own_emit o _) (by intro hw; have := no_writer o hr hn hw; exact this)
    rw [hx]
    simp only
    split
    · exact ⟨_, rfl⟩
    · split <;> exact ⟨_, rfl⟩

theorem step_some {s : S} {a : Act} (o : Own s) (hr : Reqs s) (hb : s.blocked = none) (p : Pos s) (g : GF .w s) (w : AW s)
    (hc : Contract s a) : ∃ s1, s.step a = some s1 := by
  cases a with
  | write iov =>
    simp only [S.step]
    split
    · exact wLoop_some _ hc
    · exact ⟨_, rfl⟩
  | recv caps =>
    simp only [S.step]
    split
    · rw [if_neg (by simp only [not_or]; exact hc)]; exact ⟨_, rfl⟩
    · exact ⟨_, rfl⟩
  | shutdown =>
    simp only [S.step]
    split
    · split <;> exact ⟨_, rfl⟩
    · exact ⟨_, rfl⟩
  | trySend iov => exact trySend_some o hr hc.2 hc.1.2
  | tryRecv n => exact tryRecv_some n o hr hc
  | asyncRead n => exact asyncRead_some (by exact hb) (by exact hc.1) hc.2
  | asyncWrite iov => exact asyncWrite_some (by exact hb) (by exact hc.1) hc.2
  | setHook on => exact ⟨_, rfl⟩
  | netW f k => exact netWDone_some f k (good_other o g f)
  | netR f r => exact netRDone_some f r (good_other o g f) p
  | resume f => exact resume_some f (good_other o g f)
  | aW ρ k => exact aWDone_some ρ k o hb w
  | aR ρ r => exact aRDone_some ρ r o hb w p

end Verif.Tls
