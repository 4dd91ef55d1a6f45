import Verif.Tls.Defer

/-!
# The TLS socket: C56 - C60

Everything is said of the states reachable from a new socket, `(S.init script ups hook).run acts = some s`,
for every script of the engine, every answers of the socket below and every history `acts` of calls,
completions and resumptions.
-/
namespace Verif.Tls

variable {script : List ERes} {ups : List UpAns} {hook : Bool}

/-- Everything that holds in all histories. -/
structure All (s : S) : Prop where
  own : Own s
  fed : FedOk s
  data : DataOk s
  logs : LogS s
  ar : AR s
  reqs : Reqs s
  fl : Fl s

theorem all_step {s s1 : S} {a : Act} (h : All s) (e : s.step a = some s1) : All s1 :=
  ⟨own_step h.own e, fed_step h.own h.fed e, data_step h.own h.data e, logS_step h.own h.logs e,
    ar_step h.own h.ar e, reqs_step h.own h.reqs e, fl_step h.own h.fl e⟩

theorem all_init (script ups hook) : All (S.init script ups hook) :=
  ⟨own_init _ _ _, rfl, .init _ _ _, .init _ _ _, rfl, .init _ _ _, .init _ _ _⟩

theorem all_run {acts : List Act} {s : S} (e : (S.init script ups hook).run acts = some s) : All s :=
  run_inv (fun _ _ _ h e => all_step h e) acts _ s (all_init _ _ _) e

theorem writing_wown {s : S} (o : Own s) {x : Holder} {b : List Nat} (h : Writing s x b) : s.wown = some x := by
  cases x with
  | fib f => obtain ⟨k, t, hf⟩ := h; exact (o.wf f).1 (by rw [hf]; rfl)
  | req ρ => obtain ⟨q, hq, hu⟩ := h; exact (o.wq ρ).1 (by simp [S.up, hq, upOf, hu, Up.isW])

theorem wown_writing {s : S} (o : Own s) {x : Holder} (h : s.wown = some x) : ∃ b, Writing s x b := by
  cases x with
  | fib f =>
    have := (o.wf f).2 h
    cases hf : s.fib f with
    | netW b k t => exact ⟨b, k, t, hf⟩
    | _ => rw [hf] at this; simp [Fib.isW] at this
  | req ρ =>
    have := (o.wq ρ).2 h
    cases hq : s.req ρ with
    | none => simp [S.up, hq, upOf, Up.isW] at this
    | some q =>
      cases hu : q.up with
      | wr b => exact ⟨b, q, hq, hu⟩
      | _ => simp [S.up, hq, upOf, hu, Up.isW] at this

theorem reading_rown {s : S} (o : Own s) {x : Holder} {p : Nat} (h : Reading s x p) : s.rown = some x := by
  cases x with
  | fib f => obtain ⟨k, hf⟩ := h; exact (o.rf f).1 (by rw [hf]; rfl)
  | req ρ => obtain ⟨q, hq, hu⟩ := h; exact (o.rq ρ).1 (by simp [S.up, hq, upOf, hu, Up.isR])

theorem rown_reading {s : S} (o : Own s) {x : Holder} (h : s.rown = some x) : ∃ p, Reading s x p := by
  cases x with
  | fib f =>
    have := (o.rf f).2 h
    cases hf : s.fib f with
    | netR p k => exact ⟨p, k, hf⟩
    | _ => rw [hf] at this; simp [Fib.isR] at this
  | req ρ =>
    have := (o.rq ρ).2 h
    cases hq : s.req ρ with
    | none => simp [S.up, hq, upOf, Up.isR] at this
    | some q =>
      cases hu : q.up with
      | rd b => exact ⟨b, q, hq, hu⟩
      | _ => simp [S.up, hq, upOf, hu, Up.isR] at this

/-! ## C56: the streams -/

/-- Every byte of cipher text the engine produces goes to the socket below exactly once, in order; what
has not gone yet is still queued. -/
theorem C56_cipher_stream {acts : List Act} {s : S} (e : (S.init script ups hook).run acts = some s) :
    s.wire ++ s.e.out = s.e.produced := (all_run e).own.pipe

/-- At most one write of the socket below is in flight, and it sends bytes from the front of the queue. -/
theorem C56_one_writer {acts : List Act} {s : S} (e : (S.init script ups hook).run acts = some s)
    {x y : Holder} {b c : List Nat} (hx : Writing s x b) (hy : Writing s y c) :
    x = y ∧ b ≠ [] ∧ b <+: s.e.out := by
  have o := (all_run e).own
  have h1 := writing_wown o hx
  have h2 := writing_wown o hy
  refine ⟨by rw [h1] at h2; simpa using h2, ?_⟩
  cases x with
  | fib f =>
    obtain ⟨k, t, hf⟩ := hx
    have := o.bf f (by rw [hf]; rfl)
    rw [hf] at this; exact this
  | req ρ =>
    obtain ⟨q, hq, hu⟩ := hx
    have hup : s.up ρ = .wr b := by simp [S.up, hq, upOf, hu]
    have := o.bq ρ (by rw [hup]; rfl)
    rw [hup] at this; exact this

/-- At most one read of the socket below is in flight. -/
theorem C56_one_reader {acts : List Act} {s : S} (e : (S.init script ups hook).run acts = some s)
    {x y : Holder} {p p' : Nat} (hx : Reading s x p) (hy : Reading s y p') : x = y := by
  have o := (all_run e).own
  have h1 := reading_rown o hx
  have h2 := reading_rown o hy
  rw [h1] at h2; simpa using h2

/-- The engine is fed exactly the bytes that the socket below delivered, in order; the plain text it was
given is what the calls handed over, and the plain text it returned is what the calls delivered. -/
theorem C56_plain_text {acts : List Act} {s : S} (e : (S.init script ups hook).run acts = some s) :
    s.e.fed = s.arrived ∧ encs s.log = s.e.accepted ∧ decs s.log = s.e.given :=
  ⟨(all_run e).fed, (all_run e).data.enc, (all_run e).data.dec⟩

/-- Blocking writes: the engine gets a prefix of each call's bytes, once, and the count returned is its
length. A call is under way exactly while its fiber is inside. -/
theorem C56_blocking_write {acts : List Act} {s : S} (e : (S.init script ups hook).run acts = some s) :
    wst .sync s.log ≠ .bad ∧ (s.fib .w = .idle → wst .sync s.log = .idle) := by
  have h := (all_run e).logs.w
  refine ⟨?_, ?_⟩
  · intro hb
    rw [hb] at h
    have kb : ∀ k : K, ¬ k.wm .bad := by intro k; cases k <;> simp [K.wm]
    cases hf : s.fib .w <;> rw [hf] at h <;> first | exact kb _ h | simp [Fib.wm] at h
  · intro hi; rw [hi] at h; exact h

/-- Blocking reads: the count returned is the number of bytes put into the caller's buffers. -/
theorem C56_blocking_read {acts : List Act} {s : S} (e : (S.init script ups hook).run acts = some s) :
    rst .sync s.log ≠ .bad ∧ (s.fib .r = .idle → rst .sync s.log = .idle) := by
  have h := (all_run e).logs.r
  refine ⟨?_, ?_⟩
  · intro hb
    rw [hb] at h
    have kb : ∀ k : K, ¬ k.rm .bad := by intro k; cases k <;> simp [K.rm]
    cases hf : s.fib .r <;> rw [hf] at h <;> first | exact kb _ h | simp [Fib.rm] at h
  · intro hi; rw [hi] at h; exact h

/-- Non-blocking calls keep the same rules, and each is over when it returns. -/
theorem C56_non_blocking {acts : List Act} {s : S} (e : (S.init script ups hook).run acts = some s) :
    wst .try_ s.log = .idle ∧ rst .try_ s.log = .idle := ⟨(all_run e).logs.tw, (all_run e).logs.tr⟩

/-- A blocking write in two pieces of the socket below, and a blocking read whose input arrives in between. -/
example :
    let acts : List Act := [.recv [10, 5], .write [[1, 2], [3]], .netW .w (some 0), .netR .r (.data [5, 6]), .netW .w (some 9)]
    ((S.init [⟨[], .needRead⟩, ⟨[7, 8], .took 9⟩, ⟨[], .gave [42, 43]⟩, ⟨[], .needRead⟩] [] false).run acts).map
      (fun s => (s.log, s.wire, s.e.out)) =
      some ([.rcall .sync, .dec .sync [], .call .sync [1, 2, 3], .enc .sync [1, 2, 3], .dec .sync [42, 43],
        .rret .sync 2, .ret .sync 3], [7, 8], []) := by decide

/-! ## C57: asynchronous requests -/

/-- Asynchronous reads: every call completes at most once, with the number of bytes that were delivered
to it, in all histories; it is pending exactly while a request exists. -/
theorem C57_async_read {acts : List Act} {s : S} (e : (S.init script ups hook).run acts = some s) :
    rst .async s.log = if s.req .reader = none then .idle else .busy [] := (all_run e).ar

/-- A request has an operation of the socket below in flight, or it is the deferred one. -/
theorem C57_pending {acts : List Act} {s : S} (e : (S.init script ups hook).run acts = some s) {ρ : Role} {q : Req}
    (hq : s.req ρ = some q) : (∃ b, Writing s (.req ρ) b) ∨ (∃ p, Reading s (.req ρ) p) ∨ s.blocked = some ρ := by
  rcases (all_run e).reqs.st ρ q hq with h | h
  · cases hu : q.up with
    | none => exact absurd hu h
    | wr b => exact Or.inl ⟨b, q, hq, hu⟩
    | rd p => exact Or.inr (Or.inl ⟨p, q, hq, hu⟩)
  · exact Or.inr (Or.inr h)

/-- Everything that holds in calm histories. -/
structure CalmAll (s : S) : Prop where
  all : All s
  nb : s.blocked = none
  pos : Pos s
  aw : AW s
  gf : GF .w s

theorem calm_init (script ups hook) : CalmAll (S.init script ups hook) :=
  ⟨all_init _ _ _, rfl, .init _ _ _, rfl, trivial⟩

theorem calm_step {s : S} {a : Act} (h : CalmAll s) (hc : Contract s a) :
    ∃ s1, s.step a = some s1 ∧ (s1.blocked = none → CalmAll s1) := by
  obtain ⟨s1, e⟩ := step_some h.all.own h.all.reqs h.nb h.pos h.gf h.aw hc
  exact ⟨s1, e, fun hb => ⟨all_step h.all e, hb, pos_step h.all.own h.nb h.pos e, aw_step h.all.own h.nb hc h.aw e,
    gf_step h.all.own hc h.gf e⟩⟩

theorem calm_run : ∀ (acts : List Act) (s : S), CalmAll s → Calm s acts → ∃ s1, s.run acts = some s1 ∧ CalmAll s1 := by
  intro acts
  induction acts with
  | nil => intro s h _; exact ⟨s, rfl, h⟩
  | cons a l ih =>
    intro s h hc
    obtain ⟨c, hc⟩ := hc
    obtain ⟨s1, e, k⟩ := calm_step h c
    rw [e] at hc
    obtain ⟨s2, e2, h2⟩ := ih s1 (k hc.1) hc.2
    exact ⟨s2, by simp only [S.run, e]; exact e2, h2⟩

/-- Partial: only if no request is ever deferred (`Calm`; false otherwise, see below). No CHECK fails, and
all input goes where the engine looks for it. -/
theorem C57_no_crash_partial {acts : List Act} (hc : Calm (S.init script ups hook) acts) :
    ∃ s, (S.init script ups hook).run acts = some s := by
  obtain ⟨s, e, _⟩ := calm_run acts _ (calm_init script ups hook) hc
  exact ⟨s, e⟩

/-- Partial: only if no request is ever deferred, and a reported 0 says nothing (false otherwise, see
below). Asynchronous writes: each call completes at most once; its bytes go to the engine once, and the
count reported is how many of them. -/
theorem C57_async_write_partial {acts : List Act} (hc : Calm (S.init script ups hook) acts) :
    ∃ s, (S.init script ups hook).run acts = some s ∧ wst0 .async s.log ≠ .bad ∧
      (s.req .writer = none → wst0 .async s.log = .idle) := by
  obtain ⟨s, e, h⟩ := calm_run acts _ (calm_init script ups hook) hc
  refine ⟨s, e, ?_, ?_⟩
  · have := h.aw
    intro hb
    rw [AW, hb] at this
    unfold awm at this
    split at this <;> simp_all
  · intro hq
    have := h.aw
    rw [AW, hq] at this
    exact this

/-- Partial: only if no request is ever deferred. A read of the socket below writes where the next input
belongs, behind all that the engine has got. -/
theorem C57_input_position_partial {acts : List Act} (hc : Calm (S.init script ups hook) acts) :
    ∃ s, (S.init script ups hook).run acts = some s ∧ ∀ x p, Reading s x p → p = s.e.fed.length := by
  obtain ⟨s, e, h⟩ := calm_run acts _ (calm_init script ups hook) hc
  refine ⟨s, e, ?_⟩
  intro x p hx
  cases x with
  | fib f => obtain ⟨k, hf⟩ := hx; exact h.pos.f f p k hf
  | req ρ => obtain ⟨q, hq, hu⟩ := hx; exact h.pos.q ρ q p hq hu

/-- A calm history with an asynchronous write and an asynchronous read, in which both complete. -/
example :
    let acts : List Act := [.asyncRead 10, .asyncWrite [[1, 2], [3]], .aW .writer (some 0), .aW .writer (some 9),
      .aR .reader (.data [5, 6])]
    let i := S.init [⟨[], .needRead⟩, ⟨[7, 8], .took 9⟩, ⟨[], .gave [42]⟩] [] false
    Calm i acts ∧ (i.run acts).map (·.log) = some [.rcall .async, .call .async [1, 2, 3], .enc .async [1, 2, 3],
      .ret .async 3, .dec .async [42], .rret .async 1] := by
  refine ⟨?_, by decide⟩
  refine ⟨by decide, by decide, by decide, by decide, trivial, by decide, trivial, by decide, trivial, by decide, trivial⟩

/-- Not so in general: an asynchronous write that is deferred behind another request's write is pushed
into the engine again when it is resumed. Its bytes go to the peer twice. -/
theorem C57_deferred_write_sent_twice :
    ∃ (script : List ERes) (acts : List Act) (s : S), (S.init script [] false).run acts = some s ∧
      acts = [.asyncRead 10, .asyncWrite [[1, 2]], .aW .reader (some 9), .aW .reader (some 9), .aW .writer (some 9)] ∧
      s.e.accepted = [1, 2, 1, 2] ∧ wst0 .async s.log = .bad ∧
      s.log = [.rcall .async, .call .async [1, 2], .enc .async [1, 2], .enc .async [1, 2], .ret .async 2] :=
  ⟨[⟨[9], .needRead⟩, ⟨[7], .took 5⟩, ⟨[8], .took 5⟩], _, _, rfl, rfl, by decide, by decide, by decide⟩

/-- Not so in general: a deferred request that starts to read when another request's read is over does so
before that input is committed. Its read overwrites the input that has just arrived. -/
theorem C57_deferred_read_overwrites :
    ∃ (script : List ERes) (acts : List Act) (s : S), (S.init script [] false).run acts = some s ∧
      acts = [.asyncRead 10, .asyncWrite [[1]], .aR .reader (.data [5])] ∧
      Reading s (.req .writer) 0 ∧ s.e.fed = [5] ∧ s.step (.aR .writer (.data [6])) = none :=
  ⟨[⟨[], .needRead⟩, ⟨[], .needRead⟩, ⟨[], .needRead⟩, ⟨[], .gave [42]⟩], _, _, rfl, rfl, ⟨_, rfl, rfl⟩, by decide, rfl⟩

/-- Not so in general: two requests deferred behind a blocking call are a failed CHECK. -/
theorem C57_two_deferred_crash :
    ∃ (script : List ERes) (acts : List Act) (s : S), (S.init script [] false).run acts = some s ∧
      acts = [.recv [10], .asyncWrite [[1]]] ∧ Contract s (.asyncRead 5) ∧ s.step (.asyncRead 5) = none :=
  ⟨[⟨[9], .needRead⟩, ⟨[7], .took 5⟩, ⟨[], .needWrite⟩], _, _, rfl, rfl, by decide, rfl⟩

/-- Why `Contract` asks for it: an asynchronous write right after a non-blocking one that left its output
to be flushed is a failed CHECK, although the caller has no write pending. -/
theorem C57_write_after_try_send_crash :
    ∃ (script : List ERes) (acts : List Act) (s : S), (S.init script [] false).run acts = some s ∧
      acts = [.trySend [[1]]] ∧ s.log = [.call .try_ [1], .enc .try_ [1], .ret .try_ 1] ∧
      s.step (.asyncWrite [[2]]) = none :=
  ⟨[⟨[7], .took 5⟩, ⟨[8], .took 5⟩], _, _, rfl, rfl, by decide, rfl⟩

/-- Why `Contract` asks for it: a non-blocking read during an asynchronous write can be a failed CHECK. -/
theorem C57_try_recv_during_write_crash :
    ∃ (script : List ERes) (acts : List Act) (s : S), (S.init script [] false).run acts = some s ∧
      acts = [.asyncWrite [[1]]] ∧ s.step (.tryRecv 5) = none :=
  ⟨[⟨[], .needRead⟩, ⟨[3], .needRead⟩], _, _, rfl, rfl, rfl⟩

set_option maxRecDepth 100000 in
/-- Not so with the strict rule: when the peer closes in the middle of an asynchronous write, 0 is
reported although the first vector went to the peer. -/
theorem C57_close_reports_zero :
    ∃ (script : List ERes) (iov : List (List Nat)) (s : S), GoodIov iov ∧
      (S.init script [] false).run [.asyncWrite iov] = some s ∧
      s.e.accepted = iov.flatten.take 1392 ∧ s.log.getLast? = some (.ret .async 0) ∧ wst .async s.log = .bad :=
  ⟨[⟨[7], .took 5000⟩, ⟨[], .graceful⟩], [List.replicate 1392 1, [2]], _, by decide +kernel, rfl,
    by decide +kernel, by decide +kernel, by decide +kernel⟩

/-! ## C58: progress -/

/-- A fiber inside a call is in an operation of the socket below, or waits for a flag, and then either an
operation of the socket below that is in flight holds this flag or nothing does and the fiber can run. -/
theorem C58_no_self_deadlock {acts : List Act} {s : S} (e : (S.init script ups hook).run acts = some s) (f : FId) :
    match s.fib f with
    | .idle => True
    | .netW b _ _ => Writing s (.fib f) b
    | .netR p _ => Reading s (.fib f) p
    | .waitW _ => s.wown = none ∨ ∃ x b, Writing s x b
    | .waitR _ => s.rown = none ∨ ∃ x p, Reading s x p
    | .waitIo => (s.wown = none ∧ s.rown = none) ∨ (∃ x b, Writing s x b) ∨ ∃ x p, Reading s x p := by
  have o := (all_run e).own
  have hw : s.wown = none ∨ ∃ x b, Writing s x b := by
    cases h : s.wown with
    | none => exact Or.inl rfl
    | some x => exact Or.inr ⟨x, wown_writing o h⟩
  have hr : s.rown = none ∨ ∃ x p, Reading s x p := by
    cases h : s.rown with
    | none => exact Or.inl rfl
    | some x => exact Or.inr ⟨x, rown_reading o h⟩
  cases hf : s.fib f with
  | idle => trivial
  | netW b k t => exact ⟨k, t, hf⟩
  | netR p k => exact ⟨k, hf⟩
  | waitW k => exact hw
  | waitR k => exact hr
  | waitIo =>
    rcases hw with hw | hw
    · rcases hr with hr | hr
      · exact Or.inl ⟨hw, hr⟩
      · exact Or.inr (Or.inr hr)
    · exact Or.inr (Or.inl hw)

/-- The flags say exactly whether an operation of the socket below is in flight, so none is held for ever. -/
theorem C58_flags {acts : List Act} {s : S} (e : (S.init script ups hook).run acts = some s) (x : Holder) :
    (s.wown = some x ↔ ∃ b, Writing s x b) ∧ (s.rown = some x ↔ ∃ p, Reading s x p) := by
  have o := (all_run e).own
  exact ⟨⟨wown_writing o, fun ⟨_, h⟩ => writing_wown o h⟩, ⟨rown_reading o, fun ⟨_, h⟩ => reading_rown o h⟩⟩

/-- A fiber that may run does: the step changes the state. -/
theorem C58_resume_moves {acts : List Act} {s s1 : S} (e : (S.init script ups hook).run acts = some s) {f : FId}
    (hf : (∃ k, s.fib f = .waitW k ∧ s.wown = none) ∨ (∃ k, s.fib f = .waitR k ∧ s.rown = none) ∨
      (s.fib f = .waitIo ∧ s.wown = none ∧ s.rown = none))
    (e1 : s.step (.resume f) = some s1) : s1.fib f ≠ s.fib f ∨ s.log.length < s1.log.length := by
  have lens : ∀ {g : FId} {t : S}, FrameF False g (s.setFib f .idle) t → s.log.length ≤ t.log.length := by
    intro g t k
    obtain ⟨l, h, _⟩ := k.log
    rw [h]; simp [S.setFib]
  have grow : ∀ {g : FId} {t t1 : S}, FrameF False g t t1 → s.log.length < t.log.length → s.log.length < t1.log.length := by
    intro g t t1 k h
    obtain ⟨l, h1, _⟩ := k.log
    rw [h1, List.length_append]; omega
  have o := (all_run e).own
  have rl : ∀ caps n, s.log.length < ((s.setFib f .idle).rLoop caps n).log.length := by
    intro caps n
    unfold S.rLoop
    split
    simp only
    have hl : s.log.length < (({ s.setFib f .idle with e := ‹Eng› }).emit [.dec .sync ‹List Nat›]).log.length := by
      simp [S.emit, S.setFib]
    split
    · exact grow (ff_rRet _ _) hl
    · exact grow (ff_rRet _ _) hl
    · exact grow (ff_rFail _ _ _) hl
    · split
      · exact grow (ff_rRet _ _) hl
      · exact grow (ff_upRead _ _ _) hl
    · exact grow (ff_upWrite _ _ _) hl
  have wl : ∀ iov t, (s.setFib f .idle).wLoop iov = some t → s.log.length < t.log.length := by
    intro iov t h
    unfold S.wLoop at h
    split at h
    · simp at h
    · rename_i p hp
      have hl : s.log.length < (({ s.setFib f .idle with e := p.eng, wmark := p.eng.produced.length }).emit
          [.enc .sync (iov.flatten.take p.written)]).log.length := by
        simp [S.emit, S.setFib]
      simp only at h
      split at h
      · split at h
        · simp at h
        · simp only [Option.some.injEq] at h; subst h; exact grow (ff_wFinish _ _) hl
      · simp only [Option.some.injEq] at h; subst h; exact grow (ff_wFail _ _) hl
      · simp only [Option.some.injEq] at h; subst h; exact grow (ff_wFail _ _) hl
      · simp only [Option.some.injEq] at h; subst h; exact grow (ff_upRead _ _ _) hl
      · simp only [Option.some.injEq] at h; subst h; exact grow (ff_upWrite _ _ _) hl
  have wf : ∀ n, f = .w → ((s.setFib f .idle).wFinish n).fib f = .idle ∨
      ∃ b k t, ((s.setFib f .idle).wFinish n).fib f = .netW b k t ∨ (s.wown ≠ none ∧ ((s.setFib f .idle).wFinish n).fib f = .waitW k) := by
    intro n hfw
    subst hfw
    unfold S.wFinish
    split
    · left; simp [S.wRet, S.emit, S.setFib]
    · right
      unfold S.upWrite
      split
      · rename_i x hx
        exact ⟨[], _, true, Or.inr ⟨by rw [show s.wown = some x from hx]; simp, by simp [S.setFib]; rfl⟩⟩
      · exact ⟨_, _, _, Or.inl (by simp [S.netW, S.setFib]; exact ⟨rfl, rfl, rfl⟩)⟩
  have hk := o.kf f
  simp only [S.step, S.resume] at e1
  rcases hf with ⟨k, h1, h2⟩ | ⟨k, h1, h2⟩ | ⟨h1, h2, h3⟩
  · rw [h1] at hk
    simp only [h1, h2, if_true] at e1
    rw [h1]
    cases k with
    | wOp iov n =>
      have hfw : f = .w := hk.1.symm
      simp only [S.cont] at e1
      split at e1
      · simp only [Option.some.injEq] at e1; subst e1
        left
        rcases wf n hfw with h | ⟨b, k, t, h | ⟨h, _⟩⟩
        · rw [h]; simp
        · rw [h]; simp
        · exact absurd h2 h
      · right; exact wl _ _ e1
    | wFin n =>
      have hfw : f = .w := hk.1.symm
      subst hfw
      simp only [S.cont, Option.some.injEq] at e1; subst e1
      left; simp [S.wRet, S.emit, S.setFib]
    | rOp caps n => simp only [S.cont, Option.some.injEq] at e1; subst e1; right; exact rl _ _
    | hSend =>
      have hfw : f = .h := hk.1.symm
      subst hfw
      simp only [S.cont, Option.some.injEq] at e1; subst e1
      left; simp [S.hNext, S.setFib]
  · rw [h1] at hk
    simp only [h1, h2, if_true] at e1
    rw [h1]
    cases k with
    | wOp iov n =>
      have hfw : f = .w := hk.1.symm
      simp only [S.cont] at e1
      split at e1
      · simp only [Option.some.injEq] at e1; subst e1
        left
        rcases wf n hfw with h | ⟨b, k, t, h | ⟨_, h⟩⟩
        · rw [h]; simp
        · rw [h]; simp
        · rw [h]; simp
      · right; exact wl _ _ e1
    | wFin n =>
      have hfw : f = .w := hk.1.symm
      subst hfw
      simp only [S.cont, Option.some.injEq] at e1; subst e1
      left; simp [S.wRet, S.emit, S.setFib]
    | rOp caps n => simp only [S.cont, Option.some.injEq] at e1; subst e1; right; exact rl _ _
    | hSend =>
      have hfw : f = .h := hk.1.symm
      subst hfw
      simp only [S.cont, Option.some.injEq] at e1; subst e1
      left; simp [S.hNext, S.setFib]
  · simp only [h1, h2, h3, and_self, if_true, Option.some.injEq] at e1; subst e1
    left; rw [h1]; simp [S.setFib, S.emit]

/-- Partial: only if no write of the socket below has failed (false otherwise, see below). When a blocking
write returns a count, all cipher text up to its last byte has been taken by the socket below. `wmark` is
how much the engine had produced when the write last gave it data. -/
theorem C58_write_flushed_partial {acts : List Act} {s : S} (e : (S.init script ups hook).run acts = some s) {n : Nat}
    (hl : s.log.getLast? = some (.ret .sync n)) (hu : .upFail ∉ s.log) :
    s.e.produced.take s.wmark <+: s.wire := by
  have a := all_run e
  have h := a.fl.ret n hl hu
  rw [← a.own.pipe, List.take_append_of_le_length h]
  exact List.take_prefix _ _

/-- A write that waits for the flush of an earlier one, and may then run. -/
example :
    let acts : List Act := [.trySend [[1]], .write [[2]], .aW .writer (some 9), .aW .writer (some 9)]
    ((S.init [⟨[7], .took 5⟩, ⟨[8], .took 5⟩] [] false).run acts).map
      (fun s => (s.fib .w, s.wown, s.wire, s.wmark)) = some (.waitW (.wFin 1), none, [7, 8], 2) := by decide

/-- Not so in general: a blocking write that waits while the output of an earlier non-blocking write is
flushed reports success although that flush has failed and not one byte was taken. -/
theorem C58_write_reports_lost_data :
    ∃ (script : List ERes) (acts : List Act) (s : S), (S.init script [] false).run acts = some s ∧
      acts = [.trySend [[1]], .write [[2]], .aW .writer none, .resume .w] ∧
      s.log.getLast? = some (.ret .sync 1) ∧ s.wire = [] ∧ s.e.out = [7, 8] ∧ (∀ f, s.fib f = .idle) ∧
      ∀ ρ, s.req ρ = none :=
  ⟨[⟨[7], .took 5⟩, ⟨[8], .took 5⟩], _, _, rfl, rfl, by decide, by decide, by decide, by intro f; cases f <;> decide,
    by intro ρ; cases ρ <;> decide⟩

/-- The fiber inside `Shutdown` is moved by its own steps only. -/
theorem h_kept {s s1 : S} {a : Act} (o : Own s) (ha : a ≠ .shutdown) (hw : ∀ k, a ≠ .netW .h k) (hr : ∀ r, a ≠ .netR .h r)
    (hs : a ≠ .resume .h) (e : s.step a = some s1) : s1.fib .h = s.fib .h := by
  cases a with
  | write iov => exact (ff_write (cc := False) e).fib .h (by simp)
  | recv caps => exact (ff_recv (cc := False) e).fib .h (by simp)
  | shutdown => exact absurd rfl ha
  | trySend iov => rw [(trySend_spec o e).fib]
  | tryRecv n => rw [(tryRecv_spec o e).fib]
  | asyncRead n => rw [(fq_asyncRead e).fib]
  | asyncWrite iov => rw [(fq_asyncWrite e).fib]
  | setHook on => simp only [S.step, Option.some.injEq] at e; subst e; rfl
  | netW f k => exact (ff_netWDone (cc := False) o e).fib .h (by rintro rfl; exact hw k rfl)
  | netR f r => exact (ff_netRDone (cc := True) o (fun _ => trivial) e).fib .h (by rintro rfl; exact hr r rfl)
  | resume f => exact (ff_resume (cc := False) o e).fib .h (by rintro rfl; exact hs rfl)
  | aW ρ k => rw [(fq_aWDone o e).fib]
  | aR ρ r => rw [(fq_aRDone o e).fib]

/-- `Shutdown` returns only when no operation of the socket below is in flight. -/
theorem C58_shutdown_waits {acts : List Act} {s s1 : S} (e : (S.init script ups hook).run acts = some s) {a : Act}
    (e1 : s.step a = some s1) (h0 : s.fib .h ≠ .idle) (h1 : s1.fib .h = .idle) :
    s1.shut = .done ∧ s1.log = s.log ++ [.shutDone] ∧ (∀ x b, ¬ Writing s1 x b) ∧ ∀ x p, ¬ Reading s1 x p := by
  have o := (all_run e).own
  have o1 := own_step o e1
  have hk := o.kf .h
  have hks : ∀ k : K, k.ok .h → k = .hSend := by intro k hk; cases k <;> simp [K.ok, K.fid] at hk ⊢
  by_cases c1 : a = .shutdown
  · subst c1
    simp only [S.step, h0, false_and, if_false, Option.some.injEq] at e1
    subst e1; exact absurd h1 h0
  by_cases c2 : ∃ k, a = .netW .h k
  · exfalso
    obtain ⟨k, rfl⟩ := c2
    simp only [S.step, S.netWDone] at e1
    split at e1
    · rename_i b c t hf
      rw [hf] at hk
      have := hks c hk; subst this
      split at e1
      · simp only [Option.some.injEq] at e1; subst e1
        simp [S.contFail, S.hNext, S.setFib] at h1
      · split at e1
        · simp only [Option.some.injEq] at e1; subst e1; simp [S.setFib] at h1
        · split at e1
          · simp only [Option.some.injEq] at e1; subst e1
            unfold S.netR at h1; split at h1 <;> simp [S.setFib] at h1
          · simp only [S.cont, Option.some.injEq] at e1; subst e1
            simp [S.hNext, S.setFib] at h1
    · simp only [Option.some.injEq] at e1; subst e1; exact h0 h1
  by_cases c3 : ∃ r, a = .netR .h r
  · exfalso
    obtain ⟨r, rfl⟩ := c3
    simp only [S.step, S.netRDone] at e1
    split at e1
    · rename_i p c hf
      rw [hf] at hk
      have := hks c hk; subst this
      split at e1
      · simp only [Option.some.injEq] at e1; subst e1; simp [S.contFail, S.hNext, S.setFib] at h1
      · simp only [Option.some.injEq] at e1; subst e1; simp [S.contFail, S.hNext, S.setFib] at h1
      · split at e1
        · simp only [Option.some.injEq] at e1; subst e1; simp [S.contFail, S.hNext, S.setFib] at h1
        · split at e1
          · simp at e1
          · simp only [S.cont, Option.some.injEq] at e1; subst e1; simp [S.hNext, S.setFib] at h1
    · simp only [Option.some.injEq] at e1; subst e1; exact h0 h1
  by_cases c4 : a = .resume .h
  · subst c4
    simp only [S.step, S.resume] at e1
    split at e1
    · rename_i c hf
      rw [hf] at hk
      have := hks c hk; subst this
      split at e1
      · simp only [S.cont, Option.some.injEq] at e1; subst e1; simp [S.hNext, S.setFib] at h1
      · simp only [Option.some.injEq] at e1; subst e1; exact absurd h1 h0
    · rename_i c hf
      rw [hf] at hk
      have := hks c hk; subst this
      split at e1
      · simp only [S.cont, Option.some.injEq] at e1; subst e1; simp [S.hNext, S.setFib] at h1
      · simp only [Option.some.injEq] at e1; subst e1; exact absurd h1 h0
    · split at e1
      · rename_i hf hc
        simp only [Option.some.injEq] at e1
        have w1 : s1.wown = none := by subst e1; exact hc.1
        have r1 : s1.rown = none := by subst e1; exact hc.2
        refine ⟨by subst e1; rfl, by subst e1; rfl, ?_, ?_⟩
        · intro x b h; have := writing_wown o1 h; rw [w1] at this; simp at this
        · intro x b h; have := reading_rown o1 h; rw [r1] at this; simp at this
      · simp only [Option.some.injEq] at e1; subst e1; exact absurd h1 h0
    · simp only [Option.some.injEq] at e1; subst e1; exact absurd h1 h0
  · have := h_kept o c1 (fun k h => c2 ⟨k, h⟩) (fun r h => c3 ⟨r, h⟩) c4 e1
    rw [h1] at this
    exact absurd this.symm h0

/-- `Shutdown` with a write in flight: it waits, and returns when the write is over. -/
example :
    let acts : List Act := [.write [[1]], .shutdown, .resume .h, .netW .w (some 9), .netW .w (some 9), .resume .h]
    ((S.init [⟨[7], .took 5⟩, ⟨[8], .took 1⟩] [] false).run acts).map (fun s => (s.log, s.wire)) =
      some ([.call .sync [1], .enc .sync [1], .ret .sync 1, .shutDone], [7, 8]) := by decide

/-- Partial: only if no fiber is inside a blocking call (false otherwise, see below). A deferred request
waits for an operation of the other request, which is in flight. -/
theorem C58_deferred_partial {acts : List Act} {s : S} (e : (S.init script ups hook).run acts = some s)
    (ha : ∀ a ∈ acts, a.isFiber = false) {ρ : Role} (hb : s.blocked = some ρ) :
    ∃ ρ', ρ' ≠ ρ ∧ ((∃ b, Writing s (.req ρ') b) ∨ ∃ p, Reading s (.req ρ') p) := by
  have run : ∀ (l : List Act) (s s1 : S), (∀ a ∈ l, a.isFiber = false) → Own s → Quiet s → s.run l = some s1 → Quiet s1 := by
    intro l
    induction l with
    | nil => intro s s1 _ _ h e; simp only [S.run, Option.some.injEq] at e; subst e; exact h
    | cons a l ih =>
      intro s s1 hl o h e
      simp only [S.run] at e
      cases hs : s.step a with
      | none => rw [hs] at e; simp at e
      | some s2 =>
        rw [hs] at e
        exact ih s2 s1 (fun x hx => hl x (by simp [hx])) (own_step o hs) (quiet_step (hl a (by simp)) o h hs) e
  obtain ⟨ρ', h1, h2⟩ := (run acts _ s ha (own_init _ _ _) (.init _ _ _) e).wait ρ hb
  refine ⟨ρ', h1, ?_⟩
  cases hq : s.req ρ' with
  | none => simp [S.up, hq, upOf] at h2
  | some q =>
    cases hu : q.up with
    | none => simp [S.up, hq, upOf, hu] at h2
    | wr b => exact Or.inl ⟨b, q, hq, hu⟩
    | rd p => exact Or.inr ⟨p, q, hq, hu⟩

/-- A history without fibers in which a request is deferred. -/
example :
    let acts : List Act := [.asyncRead 10, .asyncWrite [[1, 2]]]
    (∀ a ∈ acts, a.isFiber = false) ∧
    ((S.init [⟨[9], .needRead⟩, ⟨[7], .took 5⟩] [] false).run acts).map (·.blocked) = some (some .writer) := by
  refine ⟨by decide, by decide⟩

/-- Not so in general: an asynchronous write that is deferred behind a blocking read is never resumed.
Here both flags are clear, no fiber is inside a call, and nothing that happens without a further call
changes anything: the write's callback never runs. -/
theorem C58_deferred_behind_fiber_lost :
    ∃ (script : List ERes) (acts : List Act) (s : S), (S.init script [] false).run acts = some s ∧
      acts = [.recv [10], .asyncWrite [[1]], .netW .r (some 9), .netW .r (some 9), .netR .r .eof] ∧
      s.req .writer ≠ none ∧ wst .async s.log = .busy [1] [1] ∧
      ∀ a : Act, a.isEnv = true → s.step a = some s := by
  refine ⟨[⟨[9], .needRead⟩, ⟨[7], .took 5⟩], _, _, rfl, rfl, by decide, by decide, ?_⟩
  intro a ha
  cases a with
  | netW f k => cases f <;> rfl
  | netR f k => cases f <;> rfl
  | resume f => cases f <;> rfl
  | aW ρ k => cases ρ <;> rfl
  | aR ρ k => cases ρ <;> rfl
  | _ => simp [Act.isEnv] at ha

/-- Not so in general: `Shutdown` waits for the peer to take close_notify before it shuts the socket below
down. If the peer does not read, it never does, whatever else happens. -/
theorem C58_shutdown_needs_peer :
    ∃ (script : List ERes) (s : S), (S.init script [] false).run [.shutdown] = some s ∧ s.nextShut = false ∧
      ∀ (acts : List Act) (s1 : S), (∀ k, .netW .h k ∉ acts) → s.run acts = some s1 → s1.fib .h = s.fib .h := by
  have key : ∀ (acts : List Act) (s s1 : S) (b : List Nat), Own s → s.fib .h = .netW b .hSend false →
      (∀ k, .netW .h k ∉ acts) → s.run acts = some s1 → s1.fib .h = .netW b .hSend false := by
    intro acts
    induction acts with
    | nil => intro s s1 b _ h _ e; simp only [S.run, Option.some.injEq] at e; subst e; exact h
    | cons a l ih =>
      intro s s1 b o h hn e
      simp only [S.run] at e
      cases hs : s.step a with
      | none => rw [hs] at e; simp at e
      | some s2 =>
        rw [hs] at e
        refine ih s2 s1 b (own_step o hs) ?_ (fun k hk => hn k (List.mem_cons_of_mem _ hk)) e
        by_cases c1 : a = .shutdown
        · subst c1
          simp only [S.step, h, reduceCtorEq, false_and, if_false, Option.some.injEq] at hs
          subst hs; exact h
        by_cases c3 : ∃ r, a = .netR .h r
        · obtain ⟨r, rfl⟩ := c3
          simp only [S.step, S.netRDone, h, Option.some.injEq] at hs
          subst hs; exact h
        by_cases c4 : a = .resume .h
        · subst c4
          simp only [S.step, S.resume, h, Option.some.injEq] at hs
          subst hs; exact h
        rw [h_kept o c1 (fun k hk => hn k (by rw [hk]; simp)) (fun r h => c3 ⟨r, h⟩) c4 hs]
        exact h
  refine ⟨[⟨[8], .needRead⟩], _, rfl, rfl, ?_⟩
  intro acts s1 hn e
  exact key acts _ s1 [8] (own_run (own_init [⟨[8], .needRead⟩] [] false) (l := [.shutdown]) rfl) rfl hn e

/-! ## C59: the non-blocking calls -/

/-- `TrySend` never suspends. If it fails, no byte of it went to the engine, so the caller can send it
again; if it returns `n`, exactly the first `n` bytes did. If it returns the full length, its output is
with the socket below or is being written. -/
theorem C59_try_send {acts : List Act} {s s1 : S} (e : (S.init script ups hook).run acts = some s) {iov : List (List Nat)}
    (e1 : s.step (.trySend iov) = some s1) :
    s1.fib = s.fib ∧ ((∃ x, s1.log.getLast? = some (.fail .try_ x) ∧ s1.e.accepted = s.e.accepted) ∨
    (∃ n, s1.log.getLast? = some (.ret .try_ n) ∧ n ≤ iov.flatten.length ∧
      s1.e.accepted = s.e.accepted ++ iov.flatten.take n ∧
      (n = iov.flatten.length → n ≠ 0 → s1.wire = s1.e.produced ∨ ∃ b, Writing s1 (.req .writer) b))) := by
  have o := (all_run e).own
  have t := trySend_spec o e1
  refine ⟨t.fib, ?_⟩
  obtain ⟨l, n, ob, h1, h2, h3, h4, h5, h6⟩ := t.dat
  have hlast : s1.log.getLast? = some ob := by rw [h1, ← List.append_assoc, List.getLast?_concat]
  rcases h5 with h5 | ⟨h5, x, h7⟩
  · right
    refine ⟨n, by rw [hlast, h5], h3, h4, ?_⟩
    intro hn h0
    by_cases ho : s1.e.out = []
    · left; have := t.own.pipe; rw [ho] at this; simpa using this
    · right
      exact wown_writing t.own (h6 (by rw [h5, hn]) (by intro hx; rw [hx] at hn; simp at hn; exact h0 hn) ho)
  · left
    subst h5
    exact ⟨x, by rw [hlast, h7], by simpa using h4⟩

/-- `TryRecv` never suspends, and the bytes it returns are all it took from the engine. If it says "try
again", the socket below had nothing, or a write is in flight whose completion wakes the reader. -/
theorem C59_try_recv {acts : List Act} {s s1 : S} (e : (S.init script ups hook).run acts = some s) {n : Nat}
    (e1 : s.step (.tryRecv n) = some s1) :
    s1.fib = s.fib ∧ s1.e.accepted = s.e.accepted ∧ ∃ bs, s1.e.given = s.e.given ++ bs ∧
    (s1.log.getLast? = some (.rret .try_ bs.length) ∨ bs = [] ∧ ∃ x, s1.log.getLast? = some (.rfail .try_ x) ∧
      (x = .again → .empty ∈ s1.log.drop s.log.length ∨ s1.drain = true ∧ ∃ b, Writing s1 (.req .writer) b)) := by
  have o := (all_run e).own
  have t := tryRecv_spec o e1
  have a1 := all_step (all_run e) e1
  refine ⟨t.fib, t.acc, ?_⟩
  obtain ⟨l, l2, ob, h1, h2, h3, h4, h5, h6, h7⟩ := t.dat
  have hlast : s1.log.getLast? = some ob := by rw [h1, ← List.append_assoc, List.getLast?_concat]
  refine ⟨l.flatten, h2, ?_⟩
  rcases h4 with h4 | ⟨h4, x, h8⟩
  · left; rw [hlast, h4]
  · right
    refine ⟨h4, x, by rw [hlast, h8], ?_⟩
    rintro rfl
    rcases h5 h8 with ⟨k1, k2⟩ | k
    · right
      refine ⟨k1, ?_⟩
      obtain ⟨q, hq, hk⟩ := a1.reqs.dr.1 k1
      have := (a1.reqs.fl q true hq hk).1
      exact wown_writing t.own ((t.own.wq .writer).1 (by simpa [S.up, hq, upOf] using this))
    · left
      rw [h1, List.drop_left, k]; simp

/-- When the write that a reader waits for ends, the receive callback runs; until then the write is in
flight. -/
theorem C59_wake {acts : List Act} {s s1 : S} (e : (S.init script ups hook).run acts = some s) (hd : s.drain = true)
    {k : Option Nat} (e1 : s.step (.aW .writer k) = some s1) :
    (s1.drain = true ∧ ∃ b, Writing s1 (.req .writer) b) ∨
    (s1.drain = false ∧ s1.req .writer = none ∧ (s.hook = true → ∃ b, s1.log.getLast? = some (.wake b))) := by
  have a := all_run e
  have o1 := own_step a.own e1
  have r1 := reqs_step a.own a.reqs e1
  obtain ⟨q, hq, hk⟩ := a.reqs.dr.1 hd
  obtain ⟨hw, hsr⟩ := a.reqs.fl q true hq hk
  have bl : s.blocked ≠ some .writer := by
    intro hb
    have := (a.own.bl .writer hb).1
    rw [S.up, hq] at this
    simp only [upOf] at this
    rw [this] at hw; simp [Up.isW] at hw
  -- completing the request
  have fin : ∀ (t s2 : S) (x : Except Err Nat), t.hook = s.hook → t.req .writer = some { q with up := .none } → Own t →
      t.blocked ≠ some .writer → t.runPending = some s2 → s2.complete .writer x = s1 →
      (s1.drain = false ∧ s1.req .writer = none ∧ (s.hook = true → ∃ b, s1.log.getLast? = some (.wake b))) := by
    intro t s2 x ht hr ot hb he hc
    obtain ⟨o2, q2, b2, _⟩ := own_runPending (ρ := .writer) ot hb he
    have hh : s2.hook = s.hook := by rw [(fq_runPending ot hb he).hook, ht]
    rw [hr] at q2
    simp only [S.complete, q2, hk] at hc
    subst hc
    refine ⟨rfl, by simp [S.emit, S.setReq], ?_⟩
    intro hook
    rw [hh, hook]
    exact ⟨_, by simp [S.emit, S.setReq]; rfl⟩
  cases hu : q.up with
  | none => rw [hu] at hw; simp [Up.isW] at hw
  | rd p => rw [hu] at hw; simp [Up.isW] at hw
  | wr buf =>
    obtain ⟨hrel, hr, hb⟩ := own_releaseQW a.own hq hu
    have hup : s.up .writer = .wr buf := by simp [S.up, hq, upOf, hu]
    obtain ⟨hb1, hb2⟩ := a.own.bq .writer (by rw [hup]; rfl)
    rw [hup] at hb1 hb2
    simp only [Up.buf] at hb1 hb2
    simp only [S.step, S.aWDone, hq, hu] at e1
    split at e1
    · split at e1
      · simp at e1
      · rename_i s2 he
        simp only [Option.some.injEq] at e1
        exact Or.inr (fin _ s2 _ (by rfl) (by simp [S.emit, S.setReq]) (own_emit hrel _) hb he e1)
    · rename_i k
      have htake : buf.take (k + 1) = s.e.out.take (min (k + 1) buf.length) := by
        obtain ⟨t, ht⟩ := hb2
        rw [← ht, List.take_append, show min (k + 1) buf.length - buf.length = 0 from by omega]
        simp
      have hs := own_sent hrel htake rfl
      split at e1
      · left
        simp only [Option.some.injEq] at e1; subst e1
        exact ⟨hd, s.e.out.drop (min (k + 1) buf.length), { q with up := .wr (s.e.out.drop (min (k + 1) buf.length)) },
          by simp [S.setReq, Eng.consume], rfl⟩
      · split at e1
        · simp at e1
        · rename_i s2 he
          rw [if_neg (by simp [hsr])] at e1
          have oo := own_congr hs rfl rfl rfl rfl rfl rfl rfl
          obtain ⟨_, q2, _, _⟩ := own_runPending (ρ := .writer) oo hb he
          have q2 : s2.req .writer = some { q with up := .none } := by rw [q2]; simp [S.setReq]
          simp only [S.roleAction, q2, hk, Option.some.injEq] at e1
          exact Or.inr (fin _ s2 _ (by rfl) (by simp [S.setReq]) oo hb he e1)

/-- A reader is told to try again while its output is flushed, and woken when that is over. -/
example :
    let acts : List Act := [.tryRecv 10, .aW .writer (some 0), .aW .writer (some 0)]
    ((S.init [⟨[7, 8], .needRead⟩] [] true).run acts).map (fun s => (s.log, s.wire, s.drain)) =
      some ([.rcall .try_, .rfail .try_ .again, .wake true], [7, 8], false) := by decide

/-- Nothing else ends it: a reader that was told to try again is woken by the end of that write only. -/
theorem C59_drain_kept {acts : List Act} {s s1 : S} (e : (S.init script ups hook).run acts = some s) (hd : s.drain = true)
    {a : Act} (ha : ∀ k, a ≠ .aW .writer k) (e1 : s.step a = some s1) : s1.drain = true := by
  have al := all_run e
  have o := al.own
  have r1 := reqs_step o al.reqs e1
  obtain ⟨q, hq, hk⟩ := al.reqs.dr.1 hd
  obtain ⟨hw, hsr⟩ := al.reqs.fl q true hq hk
  have bl : s.blocked ≠ some .writer := by
    intro hb
    have := (o.bl .writer hb).1
    rw [S.up, hq] at this
    simp only [upOf] at this
    rw [this] at hw; simp [Up.isW] at hw
  have keep : s1.req .writer = s.req .writer → s1.drain = true := fun h => r1.dr.2 ⟨q, by rw [h]; exact hq, hk⟩
  cases a with
  | write iov => rw [(ff_write (cc := False) e1).drain]; exact hd
  | recv caps => rw [(ff_recv (cc := False) e1).drain]; exact hd
  | shutdown => rw [(ff_shutdown (cc := False) e1).drain]; exact hd
  | trySend iov => rw [(trySend_spec o e1).drain]; exact hd
  | tryRecv n =>
    rcases (tryRecv_spec o e1).bg with ⟨_, _, b⟩ | ⟨_, _, b, _⟩
    · rw [b]; exact hd
    · exact b
  | asyncRead n => exact keep ((frame_asyncRead e1).req .writer (by simp))
  | asyncWrite iov =>
    exfalso
    simp only [S.step, S.asyncWrite] at e1
    rw [if_pos (by intro x; rw [show (S.emit _ _).req .writer = s.req .writer from rfl, hq] at x; simp at x)] at e1
    simp at e1
  | setHook on => simp only [S.step, Option.some.injEq] at e1; subst e1; exact hd
  | netW f k => rw [(ff_netWDone (cc := False) o e1).drain]; exact hd
  | netR f r => rw [(ff_netRDone (cc := True) o (fun _ => trivial) e1).drain]; exact hd
  | resume f => rw [(ff_resume (cc := False) o e1).drain]; exact hd
  | aW ρ k =>
    cases ρ with
    | writer => exact absurd rfl (ha k)
    | reader =>
      refine keep ?_
      simp only [S.step, S.aWDone] at e1
      split at e1
      · simp only [Option.some.injEq] at e1; subst e1; rfl
      rename_i q' hq'
      split at e1
      · rename_i buf hu
        obtain ⟨hrel, hr, hb⟩ := own_releaseQW o hq' hu
        have hup : s.up .reader = .wr buf := by simp [S.up, hq', upOf, hu]
        obtain ⟨hb1, hb2⟩ := o.bq .reader (by rw [hup]; rfl)
        rw [hup] at hb1 hb2
        simp only [Up.buf] at hb1 hb2
        have bn : s.blocked = none := by
          cases hx : s.blocked with
          | none => rfl
          | some r => cases r with
            | reader => exact absurd hx hb
            | writer => exact absurd hx bl
        split at e1
        · split at e1
          · simp at e1
          · rename_i s2 he
            rw [runPending_none (by exact bn)] at he
            simp only [Option.some.injEq] at e1 he; subst e1; subst he
            rw [(frame_complete .reader _ _ (by exact hrel.kq .reader)).req .writer (by simp)]
            simp [S.emit, S.setReq]
        · split at e1
          · simp only [Option.some.injEq] at e1; subst e1; simp [S.setReq]
          · split at e1
            · simp at e1
            · rename_i s2 he
              rw [runPending_none (by exact bn)] at he
              simp only [Option.some.injEq] at he; subst he
              split at e1
              · rw [(frame_startUpR e1).req .writer (by simp)]; simp [S.setReq]
              · rw [(frame_roleAction (by exact hrel.kq .reader) e1).req .writer (by simp)]; simp [S.setReq]
      · simp only [Option.some.injEq] at e1; subst e1; rfl
  | aR ρ r =>
    cases ρ with
    | writer =>
      simp only [S.step, S.aRDone, hq] at e1
      split at e1
      · rename_i p hu; rw [hu] at hw; simp [Up.isW] at hw
      · simp only [Option.some.injEq] at e1; subst e1; exact hd
    | reader =>
      refine keep ?_
      simp only [S.step, S.aRDone] at e1
      split at e1
      · simp only [Option.some.injEq] at e1; subst e1; rfl
      rename_i q' hq'
      split at e1
      · rename_i pos hu
        obtain ⟨hrel, _, hb⟩ := own_releaseQR o hq' hu
        have bn : s.blocked = none := by
          cases hx : s.blocked with
          | none => rfl
          | some r => cases r with
            | reader => exact absurd hx hb
            | writer => exact absurd hx bl
        have fin : ∀ x, (S.complete { s.setReq .reader (some { q' with up := .none }) with rown := none } .reader x).req .writer = s.req .writer := by
          intro x
          rw [(frame_complete .reader _ _ (by exact hrel.kq .reader)).req .writer (by simp)]
          simp [S.setReq]
        split at e1
        · simp at e1
        · rename_i s2 he
          rw [runPending_none (by exact bn)] at he
          simp only [Option.some.injEq] at he; subst he
          split at e1
          · simp only [Option.some.injEq] at e1; subst e1; exact fin _
          · simp only [Option.some.injEq] at e1; subst e1; exact fin _
          · split at e1
            · simp only [Option.some.injEq] at e1; subst e1; exact fin _
            · split at e1
              · simp at e1
              · rw [(frame_roleAction (by exact hrel.kq .reader) e1).req .writer (by simp)]; simp [S.setReq]
      · simp only [Option.some.injEq] at e1; subst e1; rfl

/-! ## C60: vectors -/

/-- Pushing vectors that are not empty into the engine: a prefix of their bytes goes in, in order, and
nothing is left out without a reason; without an opcode something went in. -/
theorem C60_push {e : Eng} {iov : List (List Nat)} (h : GoodIov iov) :
    ∃ p, push e iov = some p ∧ p.written ≤ iov.flatten.length ∧
      p.eng.accepted = e.accepted ++ iov.flatten.take p.written ∧ (p.op = none → 0 < p.written) := by
  obtain ⟨p, hp⟩ := push_some (e := e) h.2
  have k := push_spec hp
  refine ⟨p, hp, by have := k.le; omega, by simpa using k.acc, ?_⟩
  intro ho
  refine k.pos ho ?_
  obtain ⟨h1, h2⟩ := h
  cases iov with
  | nil => exact absurd rfl h1
  | cons v l => intro hf; simp at hf; apply h2; simp [hf.1]

example : (push (Eng.init [⟨[7], .took 9⟩]) [[1, 2], [3]]).map (·.written) = some 3 := by decide

/-- A buffer given to the engine is one vector as it is, or several that together fit the batch; what
remains are the following vectors. -/
theorem C60_chunk (iov : List (List Nat)) (hn : iov ≠ []) :
    ∃ front, (∃ back, iov = front ++ back ∧ (chunk iov).2 = back) ∧ front ≠ [] ∧ (chunk iov).1 = front.flatten ∧
      (front.length = 1 ∨ front.flatten.length ≤ 1392) := by
  have gr : ∀ (l : List (List Nat)) (acc : List Nat), acc.length ≤ 1392 →
      ∃ f b, l = f ++ b ∧ (grow acc l).2 = b ∧ (grow acc l).1 = acc ++ f.flatten ∧ (acc ++ f.flatten).length ≤ 1392 := by
    intro l
    induction l with
    | nil => intro acc h; exact ⟨[], [], by simp [grow, h]⟩
    | cons v l ih =>
      intro acc h
      rw [grow]
      split
      · rename_i hc
        obtain ⟨f, b, h1, h2, h3, h4⟩ := ih (acc ++ v) (by simpa [batchSize] using hc)
        exact ⟨v :: f, b, by simp [h1], h2, by simp [h3], by simpa using h4⟩
      · exact ⟨[], v :: l, by simp [h]⟩
  cases iov with
  | nil => exact absurd rfl hn
  | cons v l =>
    rw [chunk]
    split
    · exact ⟨[v], ⟨l, rfl, rfl⟩, by simp, by simp, Or.inl rfl⟩
    · rename_i hc
      obtain ⟨f, b, h1, h2, h3, h4⟩ := gr l v (by simp [batchSize] at hc; omega)
      exact ⟨v :: f, ⟨b, by simp [h1], h2⟩, by simp, by simp [h3], Or.inr (by simpa using h4)⟩

/-- Advancing by the bytes that went leaves exactly the bytes that did not. -/
theorem C60_advance (iov : List (List Nat)) (n : Nat) (h : n ≤ iov.flatten.length) :
    ∃ rest, advance iov n = some rest ∧ rest.flatten = iov.flatten.drop n := by
  obtain ⟨r, h1, h2, _⟩ := advance_spec iov n h
  exact ⟨r, h1, h2⟩

set_option maxRecDepth 100000 in
/-- Not so with empty vectors: writing one alone, or behind a large one, is a failed CHECK. -/
theorem C60_empty_vector_crash :
    (S.init [] [] false).step (.write [[]]) = none ∧
    ∃ v : List Nat, (S.init [⟨[1], .took 5000⟩] [] false).step (.write [v, []]) = none :=
  ⟨rfl, List.replicate 1392 1, rfl⟩

/-- Nor with empty buffers: a blocking read into one is a failed CHECK. -/
theorem C60_empty_buffer_crash (script : List ERes) : (S.init script [] false).step (.recv [5, 0]) = none := rfl

end Verif.Tls
