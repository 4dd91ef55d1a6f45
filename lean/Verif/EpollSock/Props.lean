import Verif.EpollSock.Notify

/-!
# C52 to C55: the sockets of the epoll proactor
-/
namespace Verif.EpollSock

/-- States reached from a fresh socket by callers who keep to the rule. -/
def Reached (s : S) : Prop := ∃ s0 acts os, Start s0 ∧ crun s0 acts = some (os, s)

theorem Reached.inv {s : S} (h : Reached s) : Inv s := by
  obtain ⟨s0, acts, os, h0, e⟩ := h
  exact inv_run h0 e

theorem dispatch_eq {s : S} (he : s.edge = true) (ha : s.armed = true) :
    cstep s .dispatch = ({ s with edge := false } : S).wakey s.mask := by
  have hc : (s.edge && s.armed) = true := by rw [he, ha]; rfl
  simp only [cstep, Contract, if_true, step, hc]

theorem recvTurn_shut {s : S} (h : s.isShut = true) (n : Nat) :
    s.recvTurn n = ([.recvd []], { s with r := .idle }) := by
  unfold S.recvTurn; rw [if_pos h]

theorem writeTurn_shut {s : S} (h : s.isShut = true) (d : List Nat) :
    s.writeTurn d = ([.writeErr .pipe], { s with w := .idle }) := by
  unfold S.writeTurn; rw [if_pos h]

/-! ## C52: blocking reads and writes -/

/-- **C52.** On one connection, whatever happens, the bytes returned by `Recv` and `TryRecv` followed
by the bytes still queued in the kernel are the bytes that were queued followed by the bytes that
arrived: no byte is lost, duplicated or reordered. -/
theorem C52_stream (acts : List Act) (hc : ∀ r, .connect r ∉ acts) (s s1 : S) (os : List (List Obs))
    (e : crun s acts = some (os, s1)) :
    recvdOf os.flatten ++ s1.rx = s.rx ++ arrivedOf os.flatten := by
  induction acts generalizing s os with
  | nil =>
    simp only [crun, Common.run, Option.some.injEq, Prod.mk.injEq] at e
    obtain ⟨rfl, rfl⟩ := e; simp [recvdOf, arrivedOf]
  | cons a acts ih =>
    simp only [crun, Common.run] at e
    cases hs : cstep s a with
    | none => simp [hs] at e
    | some p =>
      obtain ⟨o, s2⟩ := p
      simp only [hs] at e
      cases hr : Common.run cstep s2 acts with
      | none => simp [hr] at e
      | some p2 =>
        obtain ⟨os2, s3⟩ := p2
        simp only [hr, Option.some.injEq, Prod.mk.injEq] at e
        obtain ⟨rfl, rfl⟩ := e
        have h1 := stream_step (fun r hr => hc r (by simp [hr])) hs
        have h2 := ih (fun r hr => hc r (by simp [hr])) s2 os2 hr
        simp only [List.flatten_cons, recvdOf_append, arrivedOf_append, List.append_assoc]
        rw [h2, ← List.append_assoc, h1, List.append_assoc]


example : ∃ os s1, crun (S.accepted false 4)
    [.recv 3, .arrive [1, 2], .dispatch, .arrive [3, 4], .runR, .tryRecv 9] = some (os, s1)
      ∧ recvdOf os.flatten = [1, 2, 3, 4] := by
  refine ⟨_, _, rfl, ?_⟩; decide

/-- **C52.** Along every history, the kernel takes bytes for a blocking write exactly when the write
returns a count, and those are that many first bytes of its data. A write that fails sent nothing. -/
theorem C52_writes (acts : List Act) (s s1 : S) (os : List (List Obs)) (hs : Start s)
    (e : crun s acts = some (os, s1)) : WritesOk none (acts.zip os) := by
  have key : ∀ (acts : List Act) (s s1 : S) (os : List (List Obs)) (cur : Option (List Nat)),
      (s.w ≠ .idle → ∀ d, s.wk = .write d → cur = some d) → crun s acts = some (os, s1) →
      WritesOk cur (acts.zip os) := by
    intro acts
    induction acts with
    | nil => intros; simp [WritesOk]
    | cons a acts ih =>
      intro s s1 os cur hc e
      obtain ⟨o, s2, os2, h1, h2, rfl⟩ := crun_cons e
      obtain ⟨w, hc'⟩ := writes_step hc h1
      rw [List.zip_cons_cons]
      exact ⟨w.1, w.2, ih _ _ _ _ hc' h2⟩
  refine key acts s s1 os none ?_ e
  intro hw
  cases hs <;> simp [S.fresh, S.accepted] at hw

example : ∃ os s1, crun (S.accepted false 0) [.write [5, 6, 7], .drain 2, .dispatch, .runW] = some (os, s1)
    ∧ os.flatten = [.wire .write [5, 6], .wrote 2] := ⟨_, _, rfl, rfl⟩

/-- **C52.** No wakeup is lost. Whenever a fiber is suspended in `Recv` on an open socket that has
something to read, an event for it is pending in the poller, and dispatching it makes the fiber ready. -/
theorem C52_reader_wakes {s : S} (h : Reached s) (hr : s.r = .susp) (ho : s.opened = true)
    (hd : Readable s) :
    s.edge = true ∧ s.armed = true ∧ ∃ o s1, cstep s .dispatch = some (o, s1) ∧ ∃ k, s1.r = .ready k := by
  have hI := h.inv
  have he := hI.redge hr ho hd
  have ha := hI.armed.trans ho
  refine ⟨he, ha, ?_⟩
  obtain ⟨o, s1, e, -⟩ := dispatch_some hI
  refine ⟨o, s1, ?_, s.mask.wake, ?_⟩
  · rw [dispatch_eq he ha, e]
  · have hp : s.rptr = .pend := hI.rp.mpr (by rw [hr]; simp)
    have hh : s.hookReg = false := by
      have := hI.hk
      rw [hp] at this
      simpa using this
    have hm := (mask_inn s).mpr hd
    unfold S.wakey at e
    simp only [S.handleIn, hm, hh, hp, hr, Bool.true_or, Bool.not_true, Bool.false_eq_true, if_false,
      if_true] at e
    split at e
    · simp at e
    · rename_i h2
      have := (handleOut_frame h2).2.2.2.2.2.2.2.2.2.2.1
      dsimp only at this
      grind

/-- **C52.** The same for a fiber suspended in `WriteSome` (or `Connect`). -/
theorem C52_writer_wakes {s : S} (h : Reached s) (hw : s.w = .susp) (ho : s.opened = true)
    (hd : Writable s) :
    s.edge = true ∧ s.armed = true ∧ ∃ o s1, cstep s .dispatch = some (o, s1) ∧ ∃ k, s1.w = .ready k := by
  have hI := h.inv
  have he := hI.wedge hw ho hd
  have ha := hI.armed.trans ho
  refine ⟨he, ha, ?_⟩
  obtain ⟨o, s1, e, -⟩ := dispatch_some hI
  refine ⟨o, s1, ?_, s.mask.wake, ?_⟩
  · rw [dispatch_eq he ha, e]
  · have hp : s.wptr = .pend := hI.wp.mpr (by rw [hw]; simp)
    have hh : s.apend = false := by
      have := hI.ap
      rw [hp] at this
      simpa using this
    have hm := (mask_out s).mpr hd
    unfold S.wakey at e
    cases h1 : ({ s with edge := false } : S).handleIn s.mask with
    | none => simp [h1] at e
    | some p =>
      obtain ⟨o1, sa⟩ := p
      rw [h1] at e
      obtain ⟨-, f1, -, f2, f3, -⟩ := handleIn_frame h1
      dsimp only at f1 f2 f3 e
      simp only [S.handleOut, hm, f1, f2, f3, hh, hp, hw, Bool.true_or, Bool.not_true, Bool.false_eq_true,
        if_false, if_true] at e
      grind

example : ∃ s, Reached s ∧ s.r = .susp ∧ s.w = .susp ∧ s.opened = true ∧ Readable s ∧ Writable s :=
  ⟨_, ⟨S.accepted false 0, [.dispatch, .recv 3, .write [1], .arrive [7], .drain 1], _, .accepted _ _, rfl⟩,
    rfl, rfl, rfl, by simp [Readable], by simp [Writable, S.accepted]⟩

/-- **C52.** `Shutdown` releases the fibers blocked in the socket: when they have run, both calls have
returned, the read with no bytes or an error, the write (or `Connect`) without having sent anything. -/
theorem C52_shutdown_unblocks {s : S} (h : Reached s) (rd wr : Bool) :
    ∃ o1 o2 o3 s1, crun s [.shutdown rd wr, .runR, .runW] = some ([o1, o2, o3], s1)
      ∧ s1.r = .idle ∧ s1.w = .idle
      ∧ (s.r ≠ .idle → o2 = [.recvd []] ∨ ∃ k, o2 = [.recvErr k])
      ∧ (s.w ≠ .idle → (∃ k, o3 = [.writeErr k]) ∨ ∃ b, .connected b ∈ o3) := by
  have hI := h.inv
  obtain ⟨o1, s1, e1, I1⟩ := shutdown_some hI rd wr
  have e1' := e1
  unfold S.shutdown at e1
  have hsh : s1.isShut = true := by
    have k := wakey_kernel e1
    have f := wakey_frame e1
    unfold S.isShut at *
    grind
  -- both fibers are awake
  have hpre : ∀ x : S, x = (if s.isShut = true then s else { s with shut := true, shutRd := s.shutRd || rd, shutWr := s.shutWr || wr, edge := true }) →
      x.r = s.r ∧ x.w = s.w ∧ x.rptr = s.rptr ∧ x.wptr = s.wptr ∧ x.hookReg = s.hookReg ∧ x.apend = s.apend := by
    intro x hx; subst hx; split <;> simp
  generalize hx : (if s.isShut = true then s else { s with shut := true, shutRd := s.shutRd || rd, shutWr := s.shutWr || wr, edge := true } : S) = x at e1 hpre
  obtain ⟨x1, x2, x3, x4, x5, x6⟩ := hpre x rfl
  have hr : s1.r ≠ .susp ∧ (s.r ≠ .idle → s1.r ≠ .idle) := by
    unfold S.wakey at e1; dsimp only at e1
    cases h1 : x.handleIn ⟨true, true, false, false, false⟩ with
    | none => simp [h1] at e1
    | some p =>
      obtain ⟨oa, sa⟩ := p
      rw [h1] at e1; dsimp only at e1
      have hsa : sa.r ≠ .susp ∧ (s.r ≠ .idle → sa.r ≠ .idle) := by
        have a1 := hI.rp
        have a2 := hI.hk
        unfold S.handleIn at h1
        simp only [Mask.bad, Bool.true_or, Bool.not_true, Bool.false_eq_true, if_false] at h1
        grind
      cases h2 : sa.handleOut ⟨true, true, false, false, false⟩ with
      | none => simp [h2] at e1
      | some p =>
        obtain ⟨ob, sb⟩ := p
        rw [h2] at e1; dsimp only at e1
        have := (handleOut_frame h2).2.2.2.2.2.2.2.2.2.2.1
        grind
  have hw : s1.w ≠ .susp ∧ (s.w ≠ .idle → s1.w ≠ .idle) := by
    unfold S.wakey at e1; dsimp only at e1
    cases h1 : x.handleIn ⟨true, true, false, false, false⟩ with
    | none => simp [h1] at e1
    | some p =>
      obtain ⟨oa, sa⟩ := p
      rw [h1] at e1; dsimp only at e1
      obtain ⟨-, f1, -, f2, f3, -⟩ := handleIn_frame h1
      have hsb : ∀ ob sb, sa.handleOut ⟨true, true, false, false, false⟩ = some (ob, sb) →
          sb.w ≠ .susp ∧ (s.w ≠ .idle → sb.w ≠ .idle) := by
        intro ob sb h2
        have a1 := hI.wp
        have a2 := hI.ap
        have fr := (handleOut_frame h2).2.1
        unfold S.handleOut at h2
        simp only [Mask.bad, Bool.true_or, Bool.not_true, Bool.false_eq_true, if_false] at h2
        have : ∀ d n s2, sa.ksend d = .ok (n, s2) → s2.w = sa.w := by
          intro d n s2 h; obtain ⟨rfl, -⟩ := ksend_ok h; rfl
        grind
      cases h2 : sa.handleOut ⟨true, true, false, false, false⟩ with
      | none => simp [h2] at e1
      | some p =>
        obtain ⟨ob, sb⟩ := p
        have := hsb ob sb h2
        rw [h2] at e1; dsimp only at e1
        grind
  -- the reader runs
  have hR : ∃ o2 s2, step s1 .runR = some (o2, s2) ∧ s2.r = .idle ∧ s2.w = s1.w ∧ s2.wk = s1.wk
      ∧ s2.isShut = true ∧ (s.r ≠ .idle → o2 = [.recvd []] ∨ ∃ k, o2 = [.recvErr k]) := by
    simp only [step]
    cases hk : s1.r with
    | idle => exact ⟨_, _, rfl, hk, rfl, rfl, hsh, fun h => absurd hk (hr.2 h)⟩
    | susp => exact absurd hk hr.1
    | ready k =>
      cases k with
      | ok =>
        dsimp only
        refine ⟨_, _, congrArg some (recvTurn_shut ?_ _), rfl, rfl, rfl, hsh, fun _ => Or.inl rfl⟩
        exact hsh
      | aborted => exact ⟨_, _, rfl, rfl, rfl, rfl, hsh, fun _ => Or.inr ⟨_, rfl⟩⟩
      | timedOut => exact ⟨_, _, rfl, rfl, rfl, rfl, hsh, fun _ => Or.inr ⟨_, rfl⟩⟩
  obtain ⟨o2, s2, e2, r2, w2, wk2, sh2, q2⟩ := hR
  have hW : ∃ o3 s3, step s2 .runW = some (o3, s3) ∧ s3.r = .idle ∧ s3.w = .idle
      ∧ (s.w ≠ .idle → (∃ k, o3 = [.writeErr k]) ∨ ∃ b, .connected b ∈ o3) := by
    simp only [step, w2]
    cases hk : s1.w with
    | idle => exact ⟨_, _, rfl, r2, w2.trans hk, fun h => absurd hk (hw.2 h)⟩
    | susp => exact absurd hk hw.1
    | ready k =>
      dsimp only
      cases hwk : s2.wk with
      | connect =>
        dsimp only
        unfold S.connectDone
        cases k with
        | ok => exact ⟨_, _, rfl, r2, rfl, fun _ => Or.inr ⟨true, by simp⟩⟩
        | aborted =>
          dsimp only
          split
          · exact ⟨_, _, rfl, r2, rfl, fun _ => Or.inr ⟨false, by simp⟩⟩
          · exact ⟨_, _, rfl, r2, rfl, fun _ => Or.inr ⟨false, by simp⟩⟩
        | timedOut =>
          dsimp only
          split
          · exact ⟨_, _, rfl, r2, rfl, fun _ => Or.inr ⟨false, by simp⟩⟩
          · exact ⟨_, _, rfl, r2, rfl, fun _ => Or.inr ⟨false, by simp⟩⟩
      | write d =>
        dsimp only
        cases k with
        | ok =>
          dsimp only
          refine ⟨_, _, congrArg some (writeTurn_shut ?_ _), r2, rfl, fun _ => Or.inl ⟨_, rfl⟩⟩
          exact sh2
        | aborted => exact ⟨_, _, rfl, r2, rfl, fun _ => Or.inl ⟨_, rfl⟩⟩
        | timedOut => exact ⟨_, _, rfl, r2, rfl, fun _ => Or.inl ⟨_, rfl⟩⟩
  obtain ⟨o3, s3, e3, r3, w3, q3⟩ := hW
  refine ⟨o1, o2, o3, s3, ?_, r3, w3, q2, q3⟩
  have c1 : cstep s (.shutdown rd wr) = some (o1, s1) := by simp [cstep, Contract, step, e1']
  have c2 : cstep s1 .runR = some (o2, s2) := by simp [cstep, Contract, e2]
  have c3 : cstep s2 .runW = some (o3, s3) := by simp [cstep, Contract, e3]
  simp [crun, Common.run, c1, c2, c3]

example : ∃ os s1, crun (S.accepted false 0) [.dispatch, .recv 3, .write [1], .shutdown true true, .runR, .runW]
    = some (os, s1) ∧ os.flatten = [.recvd [], .writeErr .pipe] := ⟨_, _, rfl, rfl⟩

/-- **C52 (false for `Close` alone).** `Close` without `Shutdown` does not release a fiber blocked in
`Recv`: it stays blocked through everything that can happen later, unless its own timeout fires or
somebody calls `Shutdown` on the closed socket. -/
theorem C52_close_hangs {s : S} (h : Reached s) (hr : s.r = .susp) :
    ∃ o s1, cstep s .close = some (o, s1) ∧ s1.r = .susp ∧
      ∀ acts, (∀ a ∈ acts, a ≠ .timeoutR ∧ ∀ rd wr, a ≠ .shutdown rd wr) →
        ∀ os s2, crun s1 acts = some (os, s2) → s2.r = .susp := by
  have hI := h.inv
  obtain ⟨o, s1, e, I1⟩ := close_some hI
  have hf : s1.r = .susp ∧ s1.opened = false := by
    unfold S.close S.closeAsync S.closeHook at e
    grind
  refine ⟨o, s1, by simp [cstep, Contract, step, e], hf.1, ?_⟩
  have key : ∀ acts, (∀ a ∈ acts, a ≠ .timeoutR ∧ ∀ rd wr, a ≠ .shutdown rd wr) →
      ∀ s os s2, Inv s → s.r = .susp → s.opened = false → crun s acts = some (os, s2) →
        s2.r = .susp := by
    intro acts
    induction acts with
    | nil =>
      intro _ s os s2 _ hr _ e
      simp only [crun, Common.run, Option.some.injEq, Prod.mk.injEq] at e
      obtain ⟨-, rfl⟩ := e; exact hr
    | cons a acts ih =>
      intro ha s os s2 hI hr ho e
      obtain ⟨o, s', os2, h1, h2, rfl⟩ := crun_cons e
      have hI' := inv_step hI h1
      have ha0 := ha a (by simp)
      refine ih (fun b hb => ha b (by simp [hb])) s' os2 s2 hI' ?_ ?_ h2
      all_goals
        have harm : s.armed = false := hI.armed.trans ho
        have hp : s.rptr = .pend := hI.rp.mpr (by rw [hr]; simp)
        clear ih ha hI hI' h2 e
        unfold cstep at h1
        split at h1
        case isFalse => simp at h1
        cases a with
        | shutdown rd wr => exact absurd rfl (ha0.2 rd wr)
        | timeoutR => exact absurd rfl ha0.1
        | dispatch => simp only [step, harm] at h1; grind
        | connect r => simp [step, S.connect, hp] at h1
        | recv n => simp [step, ho] at h1
        | runR => simp only [step, hr] at h1; grind
        | runW =>
          simp only [step] at h1
          have : ∀ d n s2, ({ s with wptr := .null } : S).ksend d = .ok (n, s2) →
              s2 = { s with wptr := .null, room := s.room - n } := by
            intro d n s2 h; exact (ksend_ok h).1
          unfold S.writeTurn S.connectDone at h1
          grind
        | asyncWrite c d => simp only [step, S.asyncWrite, S.isShut, ho] at h1; grind
        | trySend d => simp only [step, S.trySend, S.isShut, ho] at h1; grind
        | tryRecv d => simp only [step, S.tryRecv, S.isShut, ho] at h1; grind
        | write d => simp [step, ho] at h1
        | regHook c => simp [step, S.regHook, ho] at h1
        | resetHook => simp only [step, S.resetHook] at h1; grind
        | close => simp only [step, S.close, ho] at h1; grind
        | _ => simp only [step] at h1; grind
  intro acts ha os s2 e2
  exact key acts ha s1 os s2 I1 hf.1 hf.2 e2

example : ∃ s, Reached s ∧ s.r = .susp :=
  ⟨_, ⟨S.accepted false 0, [.recv 3], _, .accepted _ _, rfl⟩, rfl⟩

/-- **C52 (false for unix sockets).** A peer that sends and then closes: `Recv` reports "aborted" while
the bytes it sent are waiting to be read. -/
theorem C52_eof_hides_data : ∃ acts os s1,
    crun (S.accepted true 4) acts = some (os, s1) ∧
    (∀ a ∈ acts, a ≠ .reset ∧ a ≠ .timeoutR ∧ a ≠ .close ∧ ∀ rd wr, a ≠ .shutdown rd wr) ∧
    .recvErr .aborted ∈ os.flatten ∧ s1.rx = [1, 2] :=
  ⟨[.recv 5, .arrive [1, 2], .peerClose, .dispatch, .runR], _, _, rfl, by simp, by simp, rfl⟩

/-- **C52.** On a TCP connection that nobody resets, shuts down or closes here, and with no timeouts:
`Recv` never fails, and it reports the end of the stream (no bytes, although there was space for some)
only when the peer has finished and every byte it sent has been returned. -/
theorem C52_eof_partial (acts : List Act) (room : Nat) (s1 : S) (os : List (List Obs))
    (ha : ∀ a ∈ acts, Calm a ∧ (∀ r, a ≠ .connect r) ∧ a ≠ .recv 0) (a : Act) (o : List Obs) (s2 : S)
    (e : crun (S.accepted false room) acts = some (os, s1)) (hl : Calm a ∧ (∀ r, a ≠ .connect r) ∧ a ≠ .recv 0)
    (e2 : cstep s1 a = some (o, s2)) :
    (∀ k, .recvErr k ∉ o) ∧
    (.recvd [] ∈ o → s2.eof = true ∧ recvdOf (os.flatten ++ o) = arrivedOf (os.flatten ++ o)) := by
  have key : ∀ (acts : List Act), (∀ a ∈ acts, Calm a ∧ (∀ r, a ≠ .connect r) ∧ a ≠ .recv 0) →
      ∀ (s : S) (os : List (List Obs)) (s1 : S), TInv s → s.opened = true → (s.r ≠ .idle → s.rcap ≠ 0) →
      (s.w ≠ .idle → s.wk ≠ .connect) →
      crun s acts = some (os, s1) → TInv s1 ∧ s1.opened = true ∧ (s1.r ≠ .idle → s1.rcap ≠ 0) := by
    intro acts
    induction acts with
    | nil =>
      intro _ s os s1 h1 h2 h3 h4 e
      simp only [crun, Common.run, Option.some.injEq, Prod.mk.injEq] at e
      obtain ⟨-, rfl⟩ := e; exact ⟨h1, h2, h3⟩
    | cons a acts ih =>
      intro ha s os s1 h1 h2 h3 h4 e
      obtain ⟨o, s', os2, g1, g2, rfl⟩ := crun_cons e
      have ha0 := ha a (by simp)
      obtain ⟨t1, -, -⟩ := tcp_step h1 ha0.1 g1
      have side : s'.opened = true ∧ (s'.r ≠ .idle → s'.rcap ≠ 0) ∧ (s'.w ≠ .idle → s'.wk ≠ .connect) := by
        obtain ⟨hc, hk, hz⟩ := ha0
        clear ih ha e g2 t1
        unfold cstep at g1
        split at g1
        case isFalse => simp at g1
        cases a with
        | dispatch =>
          simp only [step] at g1
          split at g1
          · have k := wakey_kernel g1
            have f := wakey_frame g1
            have w := (wakey_obs g1).2.2.2.2.2.2.2
            dsimp only at k f w
            refine ⟨by grind, by grind, by grind⟩
          · grind
        | recv n =>
          simp only [step] at g1
          unfold S.recvTurn at g1
          have : n ≠ 0 := fun h => hz (by rw [h])
          have : ∀ bs s2, s.krecv n = .ok (bs, s2) → s2 = { s with rx := s.rx.drop n } := by
            intro bs s2 h; exact (krecv_ok h).1
          refine ⟨by grind, by grind, by grind⟩
        | runR =>
          simp only [step] at g1
          unfold S.recvTurn at g1
          have : ∀ n bs s2, ({ s with rptr := .null } : S).krecv n = .ok (bs, s2) →
              s2 = { s with rptr := .null, rx := s.rx.drop n } := by
            intro n bs s2 h; exact (krecv_ok h).1
          refine ⟨by grind, by grind, by grind⟩
        | tryRecv n =>
          simp only [step] at g1
          unfold S.tryRecv at g1
          have : ∀ bs s2, s.krecv n = .ok (bs, s2) → s2 = { s with rx := s.rx.drop n } := by
            intro bs s2 h; exact (krecv_ok h).1
          refine ⟨by grind, by grind, by grind⟩
        | asyncWrite c' d =>
          simp only [step, S.asyncWrite] at g1
          have : ∀ n s2, s.ksend d = .ok (n, s2) → s2 = { s with room := s.room - n } := by
            intro n s2 h; exact (ksend_ok h).1
          refine ⟨by grind, by grind, by grind⟩
        | trySend d =>
          simp only [step, S.trySend] at g1
          have : ∀ n s2, s.ksend d = .ok (n, s2) → s2 = { s with room := s.room - n } := by
            intro n s2 h; exact (ksend_ok h).1
          refine ⟨by grind, by grind, by grind⟩
        | write d =>
          simp only [step, S.writeTurn] at g1
          have : ∀ n s2, s.ksend d = .ok (n, s2) → s2 = { s with room := s.room - n } := by
            intro n s2 h; exact (ksend_ok h).1
          refine ⟨by grind, by grind, by grind⟩
        | runW =>
          simp only [step] at g1
          split at g1
          · rename_i k hk
            have : ∀ d n s2, ({ s with wptr := .null } : S).ksend d = .ok (n, s2) →
                s2 = { s with wptr := .null, room := s.room - n } := by
              intro d n s2 h; exact (ksend_ok h).1
            have hne := h4 (by rw [hk]; simp)
            split at g1
            · rename_i hwk; exact absurd hwk hne
            unfold S.writeTurn at g1
            refine ⟨by grind, by grind, by grind⟩
          · grind
        | shutdown _ _ => exact absurd hc (by simp [Calm])
        | reset => exact absurd hc (by simp [Calm])
        | timeoutR => exact absurd hc (by simp [Calm])
        | timeoutW => exact absurd hc (by simp [Calm])
        | close => exact absurd hc (by simp [Calm])
        | connect r => exact absurd rfl (hk r)
        | regHook c' =>
          simp only [step, S.regHook] at g1
          refine ⟨by grind, by grind, by grind⟩
        | resetHook =>
          simp only [step, S.resetHook] at g1
          refine ⟨by grind, by grind, by grind⟩
        | _ =>
          simp only [step] at g1
          refine ⟨by grind, by grind, by grind⟩
      exact ih (fun b hb => ha b (by simp [hb])) s' os2 s1 t1 side.1 side.2.1 side.2.2 g2
  obtain ⟨t1, ho, hcap⟩ := key acts ha _ os s1
    ⟨rfl, rfl, rfl, rfl, rfl, by simp [S.accepted, S.fresh], by simp [S.accepted, S.fresh]⟩ rfl
    (by simp [S.accepted, S.fresh]) (by simp [S.accepted, S.fresh]) e
  obtain ⟨t2, n1, n2⟩ := tcp_step t1 hl.1 e2
  refine ⟨n1, fun hm => ?_⟩
  have st1 := C52_stream acts (fun r hr => (ha _ hr).2.1 r rfl) _ s1 os e
  have st2 := stream_step hl.2.1 e2
  rcases n2 hm ho with (rfl | ⟨rfl, hz⟩) | ⟨hx, he⟩
  · exact absurd rfl hl.2.2
  · exfalso
    have : s1.r ≠ .idle := by
      intro hr
      simp [cstep, Contract, step, hr] at e2
      rw [e2.1] at hm; simp at hm
    exact hcap this hz
  · refine ⟨he, ?_⟩
    rw [hx, List.append_nil] at st2
    rw [recvdOf_append, arrivedOf_append, st2, ← List.append_assoc, st1]
    rfl

example : ∃ os s1, crun (S.accepted false 4)
    [.recv 5, .arrive [1, 2], .peerClose, .dispatch, .runR, .recv 5] = some (os, s1)
      ∧ os.flatten = [.arrived [1, 2], .recvd [1, 2], .recvd []] := ⟨_, _, rfl, rfl⟩

/-- **C52.** One reader, one writer and an open descriptor are all the code asks for: no call that
respects them fails a CHECK, in any reachable state. -/
theorem C52_no_crash {s : S} (h : Reached s) {a : Act} (ha : Allowed s a) : ∃ o s1, cstep s a = some (o, s1) := by
  have hI := h.inv
  obtain ⟨h1, h2, h3, h4, h5, h6, h7, h8, h9, h10, h11⟩ := hI
  have hI := h.inv
  have hc : Contract s a := by
    cases a
    case regHook c => exact ha.2.1
    all_goals trivial
  unfold cstep
  rw [if_pos hc]
  clear hc
  cases a with
  | dispatch =>
    simp only [step]
    split
    · obtain ⟨o, s1, e, -⟩ := dispatch_some hI; exact ⟨o, s1, e⟩
    · exact ⟨_, _, rfl⟩
  | shutdown rd wr =>
    obtain ⟨o, s1, e, -⟩ := shutdown_some hI rd wr
    exact ⟨o, s1, by simp [step, e]⟩
  | close =>
    obtain ⟨o, s1, e, -⟩ := close_some hI
    exact ⟨o, s1, by simp [step, e]⟩
  | recv n =>
    obtain ⟨a1, a2, a3⟩ := ha
    have : s.rptr = .null := by
      cases hp : s.rptr with
      | null => rfl
      | pend => rw [hp] at h2; simp [a2] at h2
      | hook c => rw [hp] at h3; simp [a3] at h3
    simp only [step, a1, a2, this]
    exact ⟨_, _, rfl⟩
  | write d =>
    obtain ⟨a1, a2, a3⟩ := ha
    have : s.wptr = .null := by
      cases hp : s.wptr with
      | null => rfl
      | pend => rw [hp] at h4; simp [a2] at h4
      | areq d c => rw [hp] at h5; simp [a3] at h5
    simp only [step, a1, a2, this]
    exact ⟨_, _, rfl⟩
  | asyncWrite c d =>
    obtain ⟨a2, a3⟩ := ha
    have : s.wptr = .null := by
      cases hp : s.wptr with
      | null => rfl
      | pend => rw [hp] at h4; simp [a2] at h4
      | areq d c => rw [hp] at h5; simp [a3] at h5
    simp only [step, S.asyncWrite, this]
    split
    · exact ⟨_, _, rfl⟩
    · split <;> exact ⟨_, _, rfl⟩
  | regHook c =>
    obtain ⟨a1, a2, a3⟩ := ha
    simp only [step, S.regHook, a1, a2, a3, Bool.not_true, Bool.or_self,
      Bool.false_eq_true, if_false]
    split <;> exact ⟨_, _, rfl⟩
  | regErr c =>
    have : s.errorCb = none := ha
    simp only [step, this]
    exact ⟨_, _, rfl⟩
  | connect r =>
    obtain ⟨a1, a2, a3, a4⟩ := ha
    have hr : s.rptr = .null := by
      cases hp : s.rptr with
      | null => rfl
      | pend => rw [hp] at h2; simp [a2] at h2
      | hook c => rw [hp] at h3; simp [a4] at h3
    have hw : s.wptr = .null := by
      cases hp : s.wptr with
      | null => rfl
      | pend => rw [hp] at h4; simp [a3] at h4
      | areq d c =>
        have := h10 (h5.mpr ⟨d, c, hp⟩)
        simp [a1] at this
    simp only [step, S.connect, a1, hr, hw]
    cases r <;> simp
  | _ =>
    simp only [step]
    repeat' split
    all_goals first | exact ⟨_, _, rfl⟩ | skip

example : ∃ s, Reached s ∧ s.r = .susp ∧ Allowed s (.write [1, 2]) :=
  ⟨_, ⟨S.accepted false 0, [.recv 3], _, .accepted _ _, rfl⟩, rfl, by simp [Allowed, S.accepted, S.fresh]⟩

/-! ## C53: asynchronous writes -/

/-- **C53.** The callback of an asynchronous write is called at most once, and only for a write that was
made. If it gets a count, the kernel took exactly that many first bytes of the data, in one piece; if it
gets an error, or was not called yet and nothing is on its way, nothing was sent. Callback names are used
once (`hu`). -/
theorem C53_once (acts : List Act) (s s1 : S) (os : List (List Obs)) (hs : Start s)
    (e : crun s acts = some (os, s1)) (c : Nat) (hu : (issuedOf c os.flatten).length ≤ 1) :
    (doneOf c os.flatten).length ≤ (issuedOf c os.flatten).length ∧
    (∀ d r, issuedOf c os.flatten = [d] → doneOf c os.flatten = [r] →
      match r with
      | .ok n => n ≤ d.length ∧ wireOf c os.flatten = [d.take n]
      | .error _ => wireOf c os.flatten = []) ∧
    (wireOf c os.flatten ≠ [] → ∃ d n, issuedOf c os.flatten = [d] ∧ wireOf c os.flatten = [d.take n] ∧
      (doneOf c os.flatten = [.ok n] ∨ (c, .ok n) ∈ s1.brief)) := by
  have h0 : Ast c [] s := by
    left
    cases hs <;> simp [issuedOf, doneOf, wireOf, briefOf, S.fresh, S.accepted]
  have h := async_run acts [] s s1 os (inv_start hs) h0 e (by simpa using hu)
  rw [List.nil_append] at h
  have hb : ∀ r, briefOf c s1.brief = [r] → (c, r) ∈ s1.brief := by
    intro r hr
    have : r ∈ briefOf c s1.brief := by rw [hr]; simp
    unfold briefOf at this
    rw [List.mem_filterMap] at this
    obtain ⟨⟨c', r'⟩, hm, hx⟩ := this
    simp only at hx
    split at hx
    · rename_i hcc
      simp only [Option.some.injEq] at hx
      subst hx; subst hcc; exact hm
    · simp at hx
  rcases h with ⟨h1, h2, h3, -, -⟩ | ⟨d, h1, ⟨-, h2, h3, -⟩ | ⟨r, hbr, h2, -, hm⟩ | ⟨r, hbr, h2, -, hm⟩⟩
  · simp [h1, h2, h3]
  · simp [h1, h2, h3]
  · refine ⟨by simp [h2], by simp [h2], ?_⟩
    intro hw
    cases r with
    | ok n => exact ⟨d, n, h1, hm.2, Or.inr (hb _ hbr)⟩
    | error k => exact absurd hm hw
  · refine ⟨by simp [h1, h2], ?_, ?_⟩
    · intro d' r' e1 e2
      rw [h1] at e1; rw [h2] at e2
      simp only [List.cons.injEq, and_true] at e1 e2
      subst e1; subst e2
      exact hm
    · intro hw
      cases r with
      | ok n => exact ⟨d, n, h1, hm.2, Or.inl h2⟩
      | error k => exact absurd hm hw

example : ∃ os s1, crun (S.accepted false 1) [.asyncWrite 3 [5, 6], .runBrief, .asyncWrite 4 [6], .drain 7, .dispatch]
    = some (os, s1) ∧ doneOf 3 os.flatten = [.ok 1] ∧ doneOf 4 os.flatten = [.ok 1]
      ∧ wireOf 3 os.flatten = [[5]] ∧ issuedOf 3 os.flatten = [[5, 6]] := ⟨_, _, rfl, rfl, rfl, rfl, rfl⟩

/-- **C53.** When the socket is closed and the callbacks already handed to the thread have run, every
asynchronous write has been answered exactly once. -/
theorem C53_all_answered (acts : List Act) (s s1 : S) (os : List (List Obs)) (hs : Start s)
    (e : crun s acts = some (os, s1)) (ho : s1.opened = false) (hb : s1.brief = []) (c : Nat)
    (hu : (issuedOf c os.flatten).length ≤ 1) :
    (doneOf c os.flatten).length = (issuedOf c os.flatten).length := by
  have h0 : Ast c [] s := by
    left
    cases hs <;> simp [issuedOf, doneOf, wireOf, briefOf, S.fresh, S.accepted]
  have hI := inv_run hs e
  have h := async_run acts [] s s1 os (inv_start hs) h0 e (by simpa using hu)
  rw [List.nil_append] at h
  rcases h with ⟨h1, h2, h3, -, -⟩ | ⟨d, h1, ⟨hp, h2, h3, -⟩ | ⟨r, hbr, h2, -, hm⟩ | ⟨r, hbr, h2, -, hm⟩⟩
  · simp [h1, h2]
  · have := hI.aopen (hI.ap.mpr ⟨_, _, hp⟩)
    simp [ho] at this
  · rw [hb] at hbr; simp [briefOf] at hbr
  · simp [h1, h2]

example : ∃ os s1, crun (S.accepted false 0) [.asyncWrite 3 [5, 6], .close] = some (os, s1)
    ∧ s1.opened = false ∧ s1.brief = [] ∧ doneOf 3 os.flatten = [.error .aborted] := ⟨_, _, rfl, rfl, rfl, rfl⟩

/-- **C53.** An asynchronous write that is waiting is never forgotten: as soon as the socket can be
written to, an event is pending, and dispatching it calls the callback. -/
theorem C53_progress {s : S} (h : Reached s) {d : List Nat} {c : Nat} (hp : s.wptr = .areq d c)
    (hw : Writable s) : s.edge = true ∧ s.opened = true ∧
      ∃ o s1, cstep s .dispatch = some (o, s1) ∧ ∃ r, .done c r ∈ o := by
  have hI := h.inv
  have hap := hI.ap.mpr ⟨d, c, hp⟩
  have ho := hI.aopen hap
  have he := hI.aedge hap hw
  have ha := hI.armed.trans ho
  refine ⟨he, ho, ?_⟩
  obtain ⟨o, s1, e, -⟩ := dispatch_some hI
  refine ⟨o, s1, by rw [dispatch_eq he ha, e], ?_⟩
  have hm := (mask_out s).mpr hw
  unfold S.wakey at e
  cases h1 : ({ s with edge := false } : S).handleIn s.mask with
  | none => simp [h1] at e
  | some p =>
    obtain ⟨o1, sa⟩ := p
    rw [h1] at e
    obtain ⟨-, f1, -, f2, f3, -, -, -, f5, f6, -, -, f7, f8, -⟩ := handleIn_frame h1
    dsimp only at f1 f2 f3 f5 f6 f7 f8 e
    have hk : sa.ksend d ≠ .again := by
      intro hk
      have := ksend_again hk
      unfold Writable at this hw
      rw [f5, f6, f7, f8] at this
      exact this hw
    simp only [S.handleOut, hm, f2, f3, hap, hp, Bool.true_or, Bool.not_true, Bool.false_eq_true,
      if_false, if_true] at e
    clear h1 f1 f2 f3 f5 f6 f7 f8 hm he ha hI
    cases hq : sa.ksend d with
    | again => exact absurd hq hk
    | ok p =>
      refine ⟨.ok p.1, ?_⟩
      rw [hq] at e; dsimp only at e
      grind
    | fail =>
      refine ⟨.error .sys, ?_⟩
      rw [hq] at e; dsimp only at e
      grind

example : ∃ s, Reached s ∧ s.wptr = .areq [1, 2] 7 ∧ Writable s :=
  ⟨_, ⟨S.accepted false 0, [.dispatch, .asyncWrite 7 [1, 2], .drain 1], _, .accepted _ _, rfl⟩, rfl,
    by simp [Writable, S.accepted]⟩

/-! ## C54: notifications -/

/-- **C54 (false).** Registering a receive hook while bytes are waiting need not call it: a fiber was
woken by `Recv`, took part of the bytes, and the hook registered after it hears nothing, with no event
pending. (Here the send buffer is full; otherwise the event would also be noted as one for writing.) -/
theorem C54_hook_misses_leftover : ∃ acts os s1, crun (S.accepted false 0) acts = some (os, s1) ∧
    .regHook 1 ∈ acts ∧ s1.rptr = .hook 1 ∧ s1.rx ≠ [] ∧ s1.edge = false ∧ ∀ b, .hook 1 b ∉ os.flatten :=
  ⟨[.dispatch, .recv 1, .arrive [1, 2], .dispatch, .runR, .regHook 1], _, _, rfl, by simp, rfl, by decide,
    rfl, by simp⟩

/-- **C54 (false).** Nor when nobody read anything: an event that also wakes a writer forgets that bytes
arrived. -/
theorem C54_hook_forgotten : ∃ acts os s1, crun (S.accepted false 0) acts = some (os, s1) ∧
    .regHook 1 ∈ acts ∧ (∀ n, .recv n ∉ acts ∧ .tryRecv n ∉ acts) ∧ s1.rptr = .hook 1 ∧ s1.rx ≠ []
      ∧ s1.edge = false ∧ ∀ b, .hook 1 b ∉ os.flatten :=
  ⟨[.dispatch, .write [9], .arrive [1, 2], .drain 5, .dispatch, .runW, .regHook 1], _, _, rfl, by simp,
    by simp, rfl, by decide, rfl, by simp⟩

/-- **C54.** Bytes that arrive while a hook is registered are announced: in every continuation that does
not read around the hook, remove it or close the socket, either the hook was called, or it will be as
soon as the pending event is dispatched, or a failed `Connect` has closed the socket. What is missing is
the announcement of bytes that arrived before the registration. -/
theorem C54_arrival_announced_partial {s : S} (h : Reached s) {c : Nat} (hp : s.rptr = .hook c) {bs : List Nat}
    {o : List Obs} {s1 : S} (e : cstep s (.arrive bs) = some (o, s1)) (hb : .arrived bs ∈ o)
    (acts : List Act) (hk : ∀ a ∈ acts, Keeps a) (os : List (List Obs)) (s2 : S)
    (e2 : crun s1 acts = some (os, s2)) :
    (∃ b, .hook c b ∈ os.flatten) ∨ s2.opened = false ∨
      (s2.edge = true ∧ ∃ o s3, cstep s2 .dispatch = some (o, s3) ∧ ∃ b, .hook c b ∈ o) := by
  have hI := h.inv
  have hI1 := inv_step hI e
  have ow : Owed c s1 := by
    unfold cstep at e
    rw [if_pos (show Contract s (.arrive bs) from trivial)] at e
    simp only [step] at e
    split at e
    · rename_i hc
      simp only [Bool.and_eq_true, decide_eq_true_eq] at hc
      simp only [Option.some.injEq, Prod.mk.injEq] at e; obtain ⟨rfl, rfl⟩ := e
      refine ⟨hp, hI.hk.mpr ⟨c, hp⟩, Or.inr ⟨hI.armed.trans hc.1.1.1.1, rfl, ?_⟩⟩
      left
      simp [hc.2]
    · simp only [Option.some.injEq, Prod.mk.injEq] at e; obtain ⟨rfl, rfl⟩ := e; simp at hb
  have key : ∀ (acts : List Act), (∀ a ∈ acts, Keeps a) → ∀ (s : S) (os : List (List Obs)) (s2 : S),
      Inv s → Owed c s → crun s acts = some (os, s2) → (∃ b, .hook c b ∈ os.flatten) ∨ (Owed c s2 ∧ Inv s2) := by
    intro acts
    induction acts with
    | nil =>
      intro _ s os s2 hI h e
      simp only [crun, Common.run, Option.some.injEq, Prod.mk.injEq] at e
      obtain ⟨-, rfl⟩ := e; exact Or.inr ⟨h, hI⟩
    | cons a acts ih =>
      intro ha s os s2 hI h e
      obtain ⟨o, s', os2, h1, h2, rfl⟩ := crun_cons e
      rcases owed_step hI h (ha a (by simp)) h1 with ⟨b, hb⟩ | h'
      · exact Or.inl ⟨b, by simp [hb]⟩
      · rcases ih (fun b hb => ha b (by simp [hb])) s' os2 s2 (inv_step hI h1) h' h2 with ⟨b, hb⟩ | h'
        · refine Or.inl ⟨b, ?_⟩
          rw [List.flatten_cons]
          exact List.mem_append.mpr (Or.inr hb)
        · exact Or.inr h'
  rcases key acts hk s1 os s2 hI1 ow e2 with h | ⟨⟨p1, p2, p3⟩, hI2⟩
  · exact Or.inl h
  · right
    rcases p3 with p3 | ⟨p3, p4, p5⟩
    · exact Or.inl p3
    · right
      refine ⟨p4, ?_⟩
      obtain ⟨o, s3, e3, -⟩ := dispatch_some hI2
      refine ⟨o, s3, by rw [dispatch_eq p4 p3, e3], ?_⟩
      exact wakey_hook (s := { s2 with edge := false }) p1 p2 ((mask_inn s2).mpr p5) e3

example : ∃ s, Reached s ∧ s.rptr = .hook 2 ∧
    ∃ o s1, cstep s (.arrive [5]) = some (o, s1) ∧ .arrived [5] ∈ o :=
  ⟨_, ⟨S.accepted false 0, [.dispatch, .regHook 2], _, .accepted _ _, rfl⟩, rfl, _, _, rfl, by simp⟩

/-- **C54.** An event dispatched while nobody was waiting to read is remembered: the next hook
registered is called at once. -/
theorem C54_remembered {s : S} (h : Reached s) (hr : s.r = .idle) (hh : s.hookReg = false) (hw : s.w ≠ .susp)
    (ho : s.opened = true) (he : s.edge = true) (hd : Readable s) (c : Nat) :
    ∃ o1 s2, crun s [.dispatch, .regHook c] = some ([o1, [.hook c true]], s2) := by
  have hI := h.inv
  have ha := hI.armed.trans ho
  have hm := (mask_inn s).mpr hd
  have hp : s.rptr = .null := by
    have h2 := hI.rp
    have h3 := hI.hk
    cases hp : s.rptr with
    | null => rfl
    | pend => rw [hp] at h2; simp [hr] at h2
    | hook c => rw [hp] at h3; simp [hh] at h3
  obtain ⟨o, s1, e, -⟩ := dispatch_some hI
  have hs1 : s1.readNotified = true ∧ s1.hookReg = false ∧ s1.opened = true ∧ s1.r = .idle := by
    have f := wakey_frame e
    have w := (wakey_obs e).2.2.2.2.2.2.2
    dsimp only at f w
    refine ⟨?_, by grind, by grind, by grind⟩
    unfold S.wakey at e
    simp only [S.handleIn, hm, hh, hp, Bool.true_or, Bool.not_true, Bool.false_eq_true, if_false,
      Bool.or_true] at e
    generalize hg : S.handleOut _ _ = g at e
    cases g with
    | none => simp at e
    | some p =>
      obtain ⟨ob, sb⟩ := p
      dsimp only at e
      have h2 : ({ s with edge := false, readNotified := true, hookReg := false, rptr := .null } : S).handleOut s.mask
          = some (ob, sb) := hg
      have : sb.readNotified = true := by
        unfold S.handleOut at h2
        have hk : ∀ d n s2, ({ s with edge := false, readNotified := true, hookReg := false, rptr := .null } : S).ksend d = .ok (n, s2) →
            s2.readNotified = true := by
          intro d n s2 h; obtain ⟨rfl, -⟩ := ksend_ok h; rfl
        grind
      grind
  obtain ⟨q1, q2, q3, q4⟩ := hs1
  refine ⟨o, { s1 with hookReg := true, rptr := .hook c, readNotified := false }, ?_⟩
  have c1 : cstep s .dispatch = some (o, s1) := by rw [dispatch_eq he ha, e]
  have c2 : cstep s1 (.regHook c) =
      some ([.hook c true], { s1 with hookReg := true, rptr := .hook c, readNotified := false }) := by
    simp [cstep, Contract, step, S.regHook, q1, q2, q3, q4]
  simp [crun, Common.run, c1, c2]

example : ∃ s, Reached s ∧ s.r = .idle ∧ s.hookReg = false ∧ s.w ≠ .susp ∧ s.opened = true ∧ s.edge = true
    ∧ Readable s :=
  ⟨_, ⟨S.accepted false 0, [.arrive [1]], _, .accepted _ _, rfl⟩, rfl, rfl, by decide, rfl, rfl,
    by simp [Readable, S.accepted, S.fresh]⟩

/-- **C54.** A hook is called only while it is registered: where it is not, it stays silent until it is
registered. In particular it is silent after `ResetOnRecvHook`. -/
theorem C54_hook_only_registered {s : S} (h : Reached s) {c : Nat} (hn : s.rptr ≠ .hook c) (acts : List Act)
    (ha : .regHook c ∉ acts) (os : List (List Obs)) (s2 : S) (e : crun s acts = some (os, s2)) :
    ∀ b, .hook c b ∉ os.flatten := by
  have key : ∀ (acts : List Act), .regHook c ∉ acts → ∀ (s : S) (os : List (List Obs)) (s2 : S),
      Inv s → s.rptr ≠ .hook c → crun s acts = some (os, s2) → ∀ b, .hook c b ∉ os.flatten := by
    intro acts
    induction acts with
    | nil =>
      intro _ s os s2 hI h e
      simp only [crun, Common.run, Option.some.injEq, Prod.mk.injEq] at e
      obtain ⟨rfl, rfl⟩ := e; simp
    | cons a acts ih =>
      intro ha s os s2 hI h e b
      obtain ⟨o, s', os2, h1, h2, rfl⟩ := crun_cons e
      simp only [List.mem_cons, not_or] at ha
      obtain ⟨-, p1, p2, -⟩ := obs_step hI h1
      rw [List.flatten_cons, List.mem_append, not_or]
      constructor
      · intro hm
        rcases p1 c b hm with h' | h'
        · exact h h'
        · exact ha.1 h'.symm
      · refine ih ha.2 s' os2 s2 (inv_step hI h1) ?_ h2 b
        intro h'
        rcases p2 c h' with h' | h'
        · exact h h'.1
        · exact ha.1 h'.symm
  exact key acts ha s os s2 h.inv hn e

/-- **C54.** After `ResetOnRecvHook` and after `Close` of an open socket no hook is registered. -/
theorem C54_hook_removed {s : S} (h : Reached s) (c : Nat) :
    (∃ o s1, cstep s .resetHook = some (o, s1) ∧ s1.rptr ≠ .hook c) ∧
    (s.opened = true → ∃ o s1, cstep s .close = some (o, s1) ∧ s1.rptr ≠ .hook c) := by
  have hI := h.inv
  constructor
  · refine ⟨[], s.resetHook, by simp [cstep, Contract, step], ?_⟩
    unfold S.resetHook
    split
    · simp
    · rename_i hh
      intro hc
      exact hh (hI.hk.mpr ⟨c, hc⟩)
  · intro ho
    obtain ⟨o, s1, e, -⟩ := close_some hI
    refine ⟨o, s1, by simp [cstep, Contract, step, e], ?_⟩
    have := hI.hk
    unfold S.close S.closeAsync S.closeHook at e
    grind

example : ∃ os s1, crun (S.accepted false 0) [.dispatch, .regHook 2, .arrive [1], .dispatch, .resetHook, .arrive [2],
    .dispatch] = some (os, s1) ∧ os.flatten = [.arrived [1], .hook 2 true, .arrived [2]] := ⟨_, _, rfl, rfl⟩

/-- **C54.** An error callback is called at most once for each registration, and a cancelled (or never
registered) one is not called until it is registered again. -/
theorem C54_error_once {s : S} (h : Reached s) (c : Nat) (acts : List Act) (os : List (List Obs)) (s2 : S)
    (e : crun s acts = some (os, s2)) :
    errsOf c os.flatten ≤ (if s.errorCb = some c then 1 else 0) + acts.count (.regErr c) := by
  have key : ∀ (acts : List Act) (s : S) (os : List (List Obs)) (s2 : S),
      Inv s → crun s acts = some (os, s2) →
      errsOf c os.flatten ≤ (if s.errorCb = some c then 1 else 0) + acts.count (.regErr c) := by
    intro acts
    induction acts with
    | nil =>
      intro s os s2 hI e
      simp only [crun, Common.run, Option.some.injEq, Prod.mk.injEq] at e
      obtain ⟨rfl, rfl⟩ := e; simp [errsOf]
    | cons a acts ih =>
      intro s os s2 hI e
      obtain ⟨o, s', os2, h1, h2, rfl⟩ := crun_cons e
      have p := (obs_step hI h1).1 c
      have := ih s' os2 s2 (inv_step hI h1) h2
      rw [List.flatten_cons, errsOf_append, List.count_cons]
      have hbeq : (a == Act.regErr c) = true ↔ a = .regErr c := beq_iff_eq
      simp only [hbeq]
      by_cases hq : a = .regErr c <;> simp only [hq, if_true, if_false] at p ⊢ <;> omega
  exact key acts s os s2 h.inv e

/-- **C54.** After `CancelOnErrorCb` no error callback is registered. -/
theorem C54_error_cancelled (s : S) (c : Nat) : ∃ o s1, cstep s .cancelErr = some (o, s1) ∧ s1.errorCb ≠ some c :=
  ⟨_, _, by simp [cstep, Contract, step]; exact ⟨rfl, rfl⟩, by simp⟩

/-- **C54.** A registered error callback hears of the end of the stream and of errors: an event is
pending as soon as they happen, and dispatching it calls the callback. -/
theorem C54_error_heard {s : S} (h : Reached s) {c : Nat} (hc : s.errorCb = some c) (ho : s.opened = true)
    (hb : s.eof = true ∨ s.err = true) (he : s.edge = true) :
    ∃ o s1, cstep s .dispatch = some (o, s1) ∧ errsOf c o = 1 := by
  have hI := h.inv
  obtain ⟨o, s1, e, -⟩ := dispatch_some hI
  refine ⟨o, s1, by rw [dispatch_eq he (hI.armed.trans ho), e], ?_⟩
  refine (wakey_obs e).2.1 c hc ?_
  simp only [S.mask, Mask.bad]
  rcases hb with hb | hb <;> simp [hb]

example : ∃ os s1, crun (S.accepted false 0) [.dispatch, .regErr 2, .peerClose, .dispatch, .spurious, .dispatch]
    = some (os, s1) ∧ errsOf 2 os.flatten = 1 := ⟨_, _, rfl, rfl⟩

example : ∃ s, Reached s ∧ s.errorCb = some 2 ∧ s.opened = true ∧ s.eof = true ∧ s.edge = true :=
  ⟨_, ⟨S.accepted false 0, [.dispatch, .regErr 2, .peerClose], _, .accepted _ _, rfl⟩, rfl, rfl, rfl, rfl⟩

/-! ## C55: Connect -/

/-- **C55 (false).** `Connect` can report success on a socket that was never connected: a `Shutdown`
during the connection attempt wakes it without an error. -/
theorem C55_connect_lies : ∃ acts os s1, crun (S.fresh false) acts = some (os, s1) ∧
    .connected true ∈ os.flatten ∧ s1.conn = false :=
  ⟨[.connect .inProgress, .shutdown true true, .runW], _, _, rfl, by simp, rfl⟩

/-- **C55 (false).** A descriptor can be closed twice: a `Close` during the attempt, and then the attempt
times out. The second `close` may hit a descriptor that by then belongs to somebody else. -/
theorem C55_double_close : ∃ acts os s1, crun (S.fresh false) acts = some (os, s1) ∧
    .doubleClose ∈ os.flatten :=
  ⟨[.connect .inProgress, .close, .timeoutW, .runW], _, _, rfl, by simp⟩

/-- **C55.** In a history without `Shutdown`, a `Connect` that reports success has a connection. -/
theorem C55_connected_partial (acts : List Act) (s s1 s2 : S) (os : List (List Obs)) (hs : Start s)
    (ha : ∀ rd wr, .shutdown rd wr ∉ acts) (e : crun s acts = some (os, s1)) (a : Act)
    (hl : ∀ rd wr, a ≠ .shutdown rd wr) (o : List Obs) (e2 : cstep s1 a = some (o, s2))
    (ho : .connected true ∈ o) : s2.conn = true := by
  have key : ∀ (acts : List Act), (∀ rd wr, .shutdown rd wr ∉ acts) → ∀ (s : S) (os : List (List Obs)) (s2 : S),
      Inv s → CInv s → crun s acts = some (os, s2) → Inv s2 ∧ CInv s2 := by
    intro acts
    induction acts with
    | nil =>
      intro _ s os s2 hI h e
      simp only [crun, Common.run, Option.some.injEq, Prod.mk.injEq] at e
      obtain ⟨rfl, rfl⟩ := e; exact ⟨hI, h⟩
    | cons a acts ih =>
      intro ha s os s2 hI h e
      obtain ⟨o, s', os2, h1, h2, rfl⟩ := crun_cons e
      have hc := connect_step hI h (fun rd wr hq => ha rd wr (by simp [hq])) h1
      exact ih (fun rd wr hq => ha rd wr (by simp [hq])) s' os2 s2 (inv_step hI h1) hc.1 h2
  have h0 : CInv s := by
    cases hs <;> constructor <;> simp [S.fresh, S.accepted]
  obtain ⟨hI, hC⟩ := key acts ha s os s1 (inv_start hs) h0 e
  exact (connect_step hI hC hl e2).2 ho

example : ∃ os s1, crun (S.fresh false) [.connect .inProgress, .establish 7, .dispatch, .runW] = some (os, s1)
    ∧ os.flatten = [.connected true] ∧ s1.conn = true := ⟨_, _, rfl, rfl, rfl⟩

/-- **C55.** A `Connect` that reports an error leaves the socket closed, so it can be tried again. -/
theorem C55_failed_closed {s : S} (h : Reached s) {a : Act} {o : List Obs} {s1 : S}
    (e : cstep s a = some (o, s1)) (hf : .connected false ∈ o) : s1.opened = false :=
  (obs_step h.inv e).2.2.2 hf

example : ∃ os s1, crun (S.fresh false) [.connect .inProgress, .reset, .dispatch, .runW, .connect (.ok 3)]
    = some (os, s1) ∧ os.flatten = [.connected false, .connected true] := ⟨_, _, rfl, rfl⟩

end Verif.EpollSock
