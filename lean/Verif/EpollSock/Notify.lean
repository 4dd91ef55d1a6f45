import Verif.EpollSock.Async

/-!
# Error callbacks, receive hooks, connections and end of file
-/
namespace Verif.EpollSock

theorem handleIn_errs {s s1 : S} {m : Mask} {o : List Obs} (h : s.handleIn m = some (o, s1)) (c : Nat) :
    errsOf c o = 0 := by
  unfold S.handleIn at h
  repeat' split at h
  all_goals simp only [Option.some.injEq, Prod.mk.injEq, reduceCtorEq] at h
  all_goals obtain ⟨rfl, rfl⟩ := h
  all_goals simp [errsOf]

theorem handleOut_obs {s s1 : S} {m : Mask} {o : List Obs} (h : s.handleOut m = some (o, s1)) :
    (∀ c, errsOf c o = 0) ∧ (∀ c b, .hook c b ∉ o) ∧ (∀ k, .recvErr k ∉ o) ∧ (∀ bs, .recvd bs ∉ o)
      ∧ (∀ b, .connected b ∉ o) ∧ .doubleClose ∉ o := by
  unfold S.handleOut at h
  split at h
  · simp only [Option.some.injEq, Prod.mk.injEq] at h; obtain ⟨rfl, rfl⟩ := h; simp [errsOf]
  split at h
  · split at h
    · rename_i d c hc
      cases hk : s.ksend d with
      | ok p =>
        obtain ⟨n, s2⟩ := p
        rw [hk] at h
        simp only [Option.some.injEq, Prod.mk.injEq] at h; obtain ⟨rfl, rfl⟩ := h; simp [errsOf]
      | again =>
        rw [hk] at h
        simp only [Option.some.injEq, Prod.mk.injEq] at h; obtain ⟨rfl, rfl⟩ := h; simp [errsOf]
      | fail =>
        rw [hk] at h
        simp only [Option.some.injEq, Prod.mk.injEq] at h; obtain ⟨rfl, rfl⟩ := h; simp [errsOf]
    · simp at h
  · repeat' split at h
    all_goals simp only [Option.some.injEq, Prod.mk.injEq, reduceCtorEq] at h
    all_goals obtain ⟨rfl, rfl⟩ := h
    all_goals simp [errsOf]

theorem handleIn_obs {s s1 : S} {m : Mask} {o : List Obs} (h : s.handleIn m = some (o, s1)) :
    (∀ c b, .hook c b ∈ o → s.rptr = .hook c) ∧ (∀ k, .recvErr k ∉ o) ∧ (∀ bs, .recvd bs ∉ o)
      ∧ (∀ b, .connected b ∉ o) ∧ .doubleClose ∉ o
      ∧ (s1.r = s.r ∨ s.r = .susp ∧ s1.r = .ready m.wake) := by
  unfold S.handleIn at h
  repeat' split at h
  all_goals simp only [Option.some.injEq, Prod.mk.injEq, reduceCtorEq] at h
  all_goals obtain ⟨rfl, rfl⟩ := h
  all_goals simp [*]

/-- What the outside sees of one dispatched event. -/
theorem wakey_obs {s s1 : S} {m : Mask} {o : List Obs} (h : s.wakey m = some (o, s1)) :
    (∀ c, errsOf c o + (if s1.errorCb = some c then 1 else 0) ≤ if s.errorCb = some c then 1 else 0) ∧
    (∀ c, s.errorCb = some c → m.bad = true → errsOf c o = 1) ∧
    (∀ c b, .hook c b ∈ o → s.rptr = .hook c) ∧ (∀ k, .recvErr k ∉ o) ∧ (∀ bs, .recvd bs ∉ o)
      ∧ (∀ b, .connected b ∉ o) ∧ .doubleClose ∉ o
      ∧ (s1.r = s.r ∨ s.r = .susp ∧ s1.r = .ready m.wake) := by
  unfold S.wakey at h
  cases h1 : s.handleIn m with
  | none => simp [h1] at h
  | some p =>
    obtain ⟨o1, sa⟩ := p
    rw [h1] at h; dsimp only at h
    obtain ⟨-, -, -, -, -, -, fe, -⟩ := handleIn_frame h1
    have he := handleIn_errs h1
    obtain ⟨a1, a2, a3, a4, a5, a6⟩ := handleIn_obs h1
    cases h2 : sa.handleOut m with
    | none => simp [h2] at h
    | some p =>
      obtain ⟨o2, sb⟩ := p
      rw [h2] at h; dsimp only at h
      obtain ⟨-, -, -, -, ge, -, -, -, -, -, gr, -⟩ := handleOut_frame h2
      obtain ⟨b0, b1, b2, b3, b4, b5⟩ := handleOut_obs h2
      split at h
      · rename_i c hc
        split at h
        · simp only [Option.some.injEq, Prod.mk.injEq] at h
          obtain ⟨rfl, rfl⟩ := h
          simp only [errsOf_append, he, b0, errsOf]
          grind
        · simp only [Option.some.injEq, Prod.mk.injEq] at h
          obtain ⟨rfl, rfl⟩ := h
          simp only [errsOf_append, he, b0]
          grind
      · simp only [Option.some.injEq, Prod.mk.injEq] at h
        obtain ⟨rfl, rfl⟩ := h
        simp only [errsOf_append, he, b0]
        grind

/-- The error callback, the receive hook and `Connect`'s results, one step. -/
theorem obs_step {s s1 : S} {a : Act} {o : List Obs} (hI : Inv s) (e : cstep s a = some (o, s1)) :
    (∀ c, errsOf c o + (if s1.errorCb = some c then 1 else 0) ≤
      (if s.errorCb = some c then 1 else 0) + if a = .regErr c then 1 else 0) ∧
    (∀ c b, .hook c b ∈ o → s.rptr = .hook c ∨ a = .regHook c) ∧
    (∀ c, s1.rptr = .hook c → s.rptr = .hook c ∧ a ≠ .resetHook ∨ a = .regHook c) ∧
    (.connected false ∈ o → s1.opened = false) := by
  unfold cstep at e
  split at e
  case isFalse => simp at e
  cases a with
  | dispatch =>
    simp only [step] at e
    split at e
    · have h1 := wakey_obs e
      have h2 := wakey_frame e
      dsimp only at h1 h2
      grind
    · simp only [Option.some.injEq, Prod.mk.injEq] at e; obtain ⟨rfl, rfl⟩ := e; simp [errsOf]
  | shutdown rd wr =>
    simp only [step, S.shutdown] at e
    have h1 := wakey_obs e
    have h2 := wakey_frame e
    have h3 : ∀ (x : S), (if s.isShut = true then s else { s with shut := true, shutRd := s.shutRd || rd, shutWr := s.shutWr || wr, edge := true }) = x → x.errorCb = s.errorCb ∧ x.rptr = s.rptr := by
      grind
    have h4 := h3 _ rfl
    rw [h4.1, h4.2] at h1
    rw [h4.2] at h2
    grind
  | close =>
    simp only [step, S.close, S.closeAsync, S.closeHook] at e
    grind [errsOf]
  | asyncWrite c' d =>
    simp only [step, S.asyncWrite] at e
    have : ∀ n s2, s.ksend d = .ok (n, s2) → s2.errorCb = s.errorCb ∧ s2.rptr = s.rptr := by
      intro n s2 h; obtain ⟨rfl, -⟩ := ksend_ok h; simp
    grind [errsOf]
  | recv n =>
    simp only [step] at e
    unfold S.recvTurn at e
    have : ∀ bs s2, s.krecv n = .ok (bs, s2) → s2.errorCb = s.errorCb ∧ s2.rptr = s.rptr := by
      intro bs s2 h; obtain ⟨rfl, -⟩ := krecv_ok h; simp
    grind [errsOf]
  | runR =>
    simp only [step] at e
    unfold S.recvTurn at e
    have : ∀ n bs s2, ({ s with rptr := .null } : S).krecv n = .ok (bs, s2) →
        s2.errorCb = s.errorCb ∧ s2.rptr = .null := by
      intro n bs s2 h; obtain ⟨rfl, -⟩ := krecv_ok h; simp
    grind [errsOf]
  | tryRecv n =>
    simp only [step] at e
    unfold S.tryRecv at e
    have : ∀ bs s2, s.krecv n = .ok (bs, s2) → s2.errorCb = s.errorCb ∧ s2.rptr = s.rptr := by
      intro bs s2 h; obtain ⟨rfl, -⟩ := krecv_ok h; simp
    grind [errsOf]
  | trySend d =>
    simp only [step, S.trySend] at e
    have : ∀ n s2, s.ksend d = .ok (n, s2) → s2.errorCb = s.errorCb ∧ s2.rptr = s.rptr := by
      intro n s2 h; obtain ⟨rfl, -⟩ := ksend_ok h; simp
    grind [errsOf]
  | write d =>
    simp only [step, S.writeTurn] at e
    have : ∀ n s2, s.ksend d = .ok (n, s2) → s2.errorCb = s.errorCb ∧ s2.rptr = s.rptr := by
      intro n s2 h; obtain ⟨rfl, -⟩ := ksend_ok h; simp
    grind [errsOf]
  | runW =>
    simp only [step] at e
    split at e
    · rename_i k hk
      have : ∀ d n s2, ({ s with wptr := .null } : S).ksend d = .ok (n, s2) →
          s2.errorCb = s.errorCb ∧ s2.rptr = s.rptr := by
        intro d n s2 h; obtain ⟨rfl, -⟩ := ksend_ok h; simp
      unfold S.writeTurn S.connectDone at e
      grind [errsOf]
    · simp only [Option.some.injEq, Prod.mk.injEq] at e; obtain ⟨rfl, rfl⟩ := e; simp [errsOf]
  | connect r =>
    simp only [step, S.connect] at e
    cases r <;> grind [errsOf]
  | regHook c =>
    simp only [step, S.regHook] at e
    grind [errsOf]
  | resetHook =>
    simp only [step, S.resetHook, Option.some.injEq, Prod.mk.injEq] at e
    obtain ⟨rfl, rfl⟩ := e
    have := hI.hk
    by_cases hh : s.hookReg = true
    · simp [errsOf, hh]
    · simp only [hh]
      grind [errsOf]
  | _ =>
    simp only [step] at e
    grind [errsOf]

/-- A receive hook that is owed a call: the socket is readable and an event is pending. Or the socket
was closed under it by a failed `Connect`. -/
def Owed (c : Nat) (s : S) : Prop :=
  s.rptr = .hook c ∧ s.hookReg = true ∧
    (s.opened = false ∨ s.armed = true ∧ s.edge = true ∧ Readable s)

/-- What a user does with a receive hook in place: no reads around it, no removal. -/
def Keeps : Act → Prop
  | .tryRecv _ | .resetHook | .close => False
  | _ => True

theorem handleIn_hook {s s1 : S} {m : Mask} {o : List Obs} {c : Nat} (hp : s.rptr = .hook c)
    (hh : s.hookReg = true) (hm : m.inn = true) (h : s.handleIn m = some (o, s1)) : ∃ b, .hook c b ∈ o := by
  unfold S.handleIn at h
  simp only [hm, Bool.true_or, Bool.not_true, Bool.false_eq_true, if_false, hh, if_true, hp,
    Option.some.injEq, Prod.mk.injEq] at h
  obtain ⟨rfl, rfl⟩ := h
  exact ⟨_, List.mem_singleton.mpr rfl⟩

theorem wakey_hook {s s1 : S} {m : Mask} {o : List Obs} {c : Nat} (hp : s.rptr = .hook c)
    (hh : s.hookReg = true) (hm : m.inn = true) (h : s.wakey m = some (o, s1)) : ∃ b, .hook c b ∈ o := by
  unfold S.wakey at h
  cases h1 : s.handleIn m with
  | none => simp [h1] at h
  | some p =>
    obtain ⟨o1, sa⟩ := p
    rw [h1] at h; dsimp only at h
    obtain ⟨b, hb⟩ := handleIn_hook hp hh hm h1
    refine ⟨b, ?_⟩
    cases h2 : sa.handleOut m with
    | none => simp [h2] at h
    | some p =>
      obtain ⟨o2, sb⟩ := p
      rw [h2] at h; dsimp only at h
      grind

theorem Owed.frame {c : Nat} {s s1 : S} (h : Owed c s) (f1 : s1.rptr = s.rptr) (f2 : s1.hookReg = s.hookReg)
    (f3 : s.opened = false → s1.opened = false) (f4 : s1.opened = true → s1.armed = s.armed)
    (f5 : s1.opened = true → s.edge = true → s1.edge = true) (f6 : s.rx ≠ [] → s1.rx ≠ [])
    (f7 : s.eof = true → s1.eof = true) (f8 : s1.shutRd = s.shutRd) (f9 : s.err = true → s1.err = true) :
    Owed c s1 := by
  obtain ⟨p1, p2, p3⟩ := h
  refine ⟨f1 ▸ p1, f2 ▸ p2, ?_⟩
  cases ho : s1.opened with
  | false => exact Or.inl rfl
  | true =>
    right
    rcases p3 with p3 | ⟨p3, p4, p5⟩
    · simp [f3 p3] at ho
    · refine ⟨(f4 ho).trans p3, f5 ho p4, ?_⟩
      unfold Readable at *
      rw [f8]
      rcases p5 with p5 | p5 | p5 | p5
      · exact Or.inl (f6 p5)
      · exact Or.inr (Or.inl (f7 p5))
      · exact Or.inr (Or.inr (Or.inl p5))
      · exact Or.inr (Or.inr (Or.inr (f9 p5)))

theorem owed_step {c : Nat} {s s1 : S} {a : Act} {o : List Obs} (hI : Inv s) (h : Owed c s) (hk : Keeps a)
    (e : cstep s a = some (o, s1)) : (∃ b, .hook c b ∈ o) ∨ Owed c s1 := by
  have he := e
  unfold cstep at e
  split at e
  case isFalse => simp at e
  obtain ⟨p1, p2, p3⟩ := h
  obtain ⟨h1, h2, h3, h4, h5, h6, h7, h8, h9, h10, h11⟩ := hI
  have hr : s.r = .idle := by
    have : s.rptr ≠ .pend := by rw [p1]; simp
    grind
  cases a with
  | dispatch =>
    simp only [step] at e
    split at e
    · rename_i hd
      rcases p3 with p3 | ⟨p3, p4, p5⟩
      · simp [h1, p3] at hd
      · left
        exact wakey_hook (s := { s with edge := false }) p1 p2 ((mask_inn s).mpr p5) e
    · right; grind [Owed]
  | shutdown rd wr =>
    simp only [step, S.shutdown] at e
    left
    refine wakey_hook ?_ ?_ rfl e
    · split <;> exact p1
    · split <;> exact p2
  | asyncWrite c' d =>
    simp only [step, S.asyncWrite] at e
    have : ∀ n s2, s.ksend d = .ok (n, s2) → s2 = { s with room := s.room - n } := by
      intro n s2 h; exact (ksend_ok h).1
    clear h1 h2 h3 h4 h5 h6 h7 h8 h9 h10 h11 he
    exact Or.inr (Owed.frame ⟨p1, p2, p3⟩ (by grind [List.append_eq_nil_iff]) (by grind [List.append_eq_nil_iff]) (by grind [List.append_eq_nil_iff]) (by grind [List.append_eq_nil_iff]) (by grind [List.append_eq_nil_iff]) (by grind [List.append_eq_nil_iff]) (by grind [List.append_eq_nil_iff]) (by grind [List.append_eq_nil_iff]) (by grind [List.append_eq_nil_iff]))
  | trySend d =>
    simp only [step, S.trySend] at e
    have : ∀ n s2, s.ksend d = .ok (n, s2) → s2 = { s with room := s.room - n } := by
      intro n s2 h; exact (ksend_ok h).1
    clear h1 h2 h3 h4 h5 h6 h7 h8 h9 h10 h11 he
    exact Or.inr (Owed.frame ⟨p1, p2, p3⟩ (by grind [List.append_eq_nil_iff]) (by grind [List.append_eq_nil_iff]) (by grind [List.append_eq_nil_iff]) (by grind [List.append_eq_nil_iff]) (by grind [List.append_eq_nil_iff]) (by grind [List.append_eq_nil_iff]) (by grind [List.append_eq_nil_iff]) (by grind [List.append_eq_nil_iff]) (by grind [List.append_eq_nil_iff]))
  | write d =>
    simp only [step, S.writeTurn] at e
    have : ∀ n s2, s.ksend d = .ok (n, s2) → s2 = { s with room := s.room - n } := by
      intro n s2 h; exact (ksend_ok h).1
    clear h1 h2 h3 h4 h5 h6 h7 h8 h9 h10 h11 he
    exact Or.inr (Owed.frame ⟨p1, p2, p3⟩ (by grind [List.append_eq_nil_iff]) (by grind [List.append_eq_nil_iff]) (by grind [List.append_eq_nil_iff]) (by grind [List.append_eq_nil_iff]) (by grind [List.append_eq_nil_iff]) (by grind [List.append_eq_nil_iff]) (by grind [List.append_eq_nil_iff]) (by grind [List.append_eq_nil_iff]) (by grind [List.append_eq_nil_iff]))
  | runW =>
    simp only [step] at e
    split at e
    · rename_i k hk
      have : ∀ d n s2, ({ s with wptr := .null } : S).ksend d = .ok (n, s2) →
          s2 = { s with wptr := .null, room := s.room - n } := by
        intro d n s2 h; exact (ksend_ok h).1
      unfold S.writeTurn S.connectDone at e
      clear h1 h2 h3 h4 h5 h6 h7 h8 h9 h10 h11 he
      exact Or.inr (Owed.frame ⟨p1, p2, p3⟩ (by grind [List.append_eq_nil_iff]) (by grind [List.append_eq_nil_iff]) (by grind [List.append_eq_nil_iff]) (by grind [List.append_eq_nil_iff]) (by grind [List.append_eq_nil_iff]) (by grind [List.append_eq_nil_iff]) (by grind [List.append_eq_nil_iff]) (by grind [List.append_eq_nil_iff]) (by grind [List.append_eq_nil_iff]))
    · simp only [Option.some.injEq, Prod.mk.injEq] at e; obtain ⟨rfl, rfl⟩ := e; right; exact ⟨p1, p2, p3⟩
  | connect r =>
    simp only [step, S.connect] at e
    simp [p1] at e
  | recv n =>
    simp only [step] at e
    simp [p1] at e
  | regHook c' =>
    simp only [step, S.regHook] at e
    simp [p2] at e
  | runR =>
    simp only [step, hr] at e
    simp only [Option.some.injEq, Prod.mk.injEq] at e; obtain ⟨rfl, rfl⟩ := e; right; exact ⟨p1, p2, p3⟩
  | tryRecv n => exact absurd hk (by simp [Keeps])
  | close => exact absurd hk (by simp [Keeps])
  | resetHook => exact absurd hk (by simp [Keeps])
  | _ =>
    simp only [step] at e
    clear h1 h2 h3 h4 h5 h6 h7 h8 h9 h10 h11 he
    exact Or.inr (Owed.frame ⟨p1, p2, p3⟩ (by grind [List.append_eq_nil_iff]) (by grind [List.append_eq_nil_iff]) (by grind [List.append_eq_nil_iff]) (by grind [List.append_eq_nil_iff]) (by grind [List.append_eq_nil_iff]) (by grind [List.append_eq_nil_iff]) (by grind [List.append_eq_nil_iff]) (by grind [List.append_eq_nil_iff]) (by grind [List.append_eq_nil_iff]))

/-- Nobody shuts the socket down: then a `Connect` woken without an error is connected. -/
structure CInv (s : S) : Prop where
  rd : s.shutRd = false
  wr : s.shutWr = false
  eof : s.eof = true → s.conn = true
  ok : s.w = .ready .ok → s.wk = .connect → s.conn = true

theorem wakey_kernel {s s1 : S} {m : Mask} {o : List Obs} (h : s.wakey m = some (o, s1)) :
    s1.shutRd = s.shutRd ∧ s1.shutWr = s.shutWr ∧ s1.eof = s.eof ∧ s1.rx = s.rx ∧ s1.uds = s.uds
      ∧ s1.rcap = s.rcap ∧ s1.shut = s.shut := by
  unfold S.wakey at h
  cases h1 : s.handleIn m with
  | none => simp [h1] at h
  | some p =>
    obtain ⟨o1, sa⟩ := p
    rw [h1] at h; dsimp only at h
    have ha : sa.shutRd = s.shutRd ∧ sa.shutWr = s.shutWr ∧ sa.eof = s.eof ∧ sa.rx = s.rx
        ∧ sa.uds = s.uds ∧ sa.rcap = s.rcap ∧ sa.shut = s.shut := by
      unfold S.handleIn at h1
      repeat' split at h1
      all_goals simp only [Option.some.injEq, Prod.mk.injEq, reduceCtorEq] at h1
      all_goals obtain ⟨rfl, rfl⟩ := h1
      all_goals simp
    cases h2 : sa.handleOut m with
    | none => simp [h2] at h
    | some p =>
      obtain ⟨o2, sb⟩ := p
      rw [h2] at h; dsimp only at h
      have hb : sb.shutRd = sa.shutRd ∧ sb.shutWr = sa.shutWr ∧ sb.eof = sa.eof ∧ sb.rx = sa.rx
          ∧ sb.uds = sa.uds ∧ sb.rcap = sa.rcap ∧ sb.shut = sa.shut := by
        unfold S.handleOut at h2
        have : ∀ d n s2, sa.ksend d = .ok (n, s2) → s2 = { sa with room := sa.room - n } := by
          intro d n s2 h; exact (ksend_ok h).1
        clear h ha h1
        refine ⟨by grind, by grind, by grind, by grind, by grind, by grind, by grind⟩
      grind

theorem handleOut_wake {s s1 : S} {m : Mask} {o : List Obs} (h : s.handleOut m = some (o, s1))
    (hw : s1.w ≠ s.w) : m.out = true ∨ m.bad = true := by
  unfold S.handleOut at h
  split at h
  · simp only [Option.some.injEq, Prod.mk.injEq] at h; obtain ⟨rfl, rfl⟩ := h; simp at hw
  · grind

theorem wakey_wake {s s1 : S} {m : Mask} {o : List Obs} (h : s.wakey m = some (o, s1))
    (hw : s1.w ≠ s.w) : m.out = true ∨ m.bad = true := by
  unfold S.wakey at h
  cases h1 : s.handleIn m with
  | none => simp [h1] at h
  | some p =>
    obtain ⟨o1, sa⟩ := p
    rw [h1] at h; dsimp only at h
    obtain ⟨-, fw, -⟩ := handleIn_frame h1
    cases h2 : sa.handleOut m with
    | none => simp [h2] at h
    | some p =>
      obtain ⟨o2, sb⟩ := p
      rw [h2] at h; dsimp only at h
      refine handleOut_wake h2 ?_
      grind

theorem connect_step {s s1 : S} {a : Act} {o : List Obs} (hI : Inv s) (h : CInv s)
    (ha : ∀ rd wr, a ≠ .shutdown rd wr) (e : cstep s a = some (o, s1)) :
    CInv s1 ∧ (.connected true ∈ o → s1.conn = true) := by
  unfold cstep at e
  split at e
  case isFalse => simp at e
  obtain ⟨c1, c2, c3, c4⟩ := h
  obtain ⟨h1, h2, h3, h4, h5, h6, h7, h8, h9, h10, h11⟩ := hI
  cases a with
  | dispatch =>
    simp only [step] at e
    split at e
    · have k := wakey_kernel e
      have f := wakey_frame e
      have w := wakey_obs e
      have q := wakey_wake e
      dsimp only at k f w q
      have hm : s.mask.wake = .ok → s.mask.out = true ∨ s.mask.bad = true → s.conn = true := by
        simp only [S.mask, Mask.wake, Mask.bad, c1, c2]
        grind
      refine ⟨⟨by grind, by grind, by grind, by grind⟩, by grind⟩
    · grind [CInv]
  | shutdown rd wr => exact absurd rfl (ha rd wr)
  | asyncWrite c' d =>
    simp only [step, S.asyncWrite] at e
    have : ∀ n s2, s.ksend d = .ok (n, s2) → s2 = { s with room := s.room - n } := by
      intro n s2 h; exact (ksend_ok h).1
    refine ⟨⟨by grind, by grind, by grind, by grind⟩, by grind⟩
  | trySend d =>
    simp only [step, S.trySend] at e
    have : ∀ n s2, s.ksend d = .ok (n, s2) → s2 = { s with room := s.room - n } := by
      intro n s2 h; exact (ksend_ok h).1
    refine ⟨⟨by grind, by grind, by grind, by grind⟩, by grind⟩
  | write d =>
    simp only [step, S.writeTurn] at e
    have : ∀ n s2, s.ksend d = .ok (n, s2) → s2 = { s with room := s.room - n } := by
      intro n s2 h; exact (ksend_ok h).1
    refine ⟨⟨by grind, by grind, by grind, by grind⟩, by grind⟩
  | runW =>
    simp only [step] at e
    split at e
    · rename_i k hk
      have : ∀ d n s2, ({ s with wptr := .null } : S).ksend d = .ok (n, s2) →
          s2 = { s with wptr := .null, room := s.room - n } := by
        intro d n s2 h; exact (ksend_ok h).1
      unfold S.writeTurn S.connectDone at e
      refine ⟨⟨by grind, by grind, by grind, by grind⟩, by grind⟩
    · grind [CInv]
  | recv n =>
    simp only [step] at e
    unfold S.recvTurn at e
    have : ∀ bs s2, s.krecv n = .ok (bs, s2) → s2 = { s with rx := s.rx.drop n } := by
      intro bs s2 h; exact (krecv_ok h).1
    refine ⟨⟨by grind, by grind, by grind, by grind⟩, by grind⟩
  | runR =>
    simp only [step] at e
    unfold S.recvTurn at e
    have : ∀ n bs s2, ({ s with rptr := .null } : S).krecv n = .ok (bs, s2) →
        s2 = { s with rptr := .null, rx := s.rx.drop n } := by
      intro n bs s2 h; exact (krecv_ok h).1
    refine ⟨⟨by grind, by grind, by grind, by grind⟩, by grind⟩
  | tryRecv n =>
    simp only [step] at e
    unfold S.tryRecv at e
    have : ∀ bs s2, s.krecv n = .ok (bs, s2) → s2 = { s with rx := s.rx.drop n } := by
      intro bs s2 h; exact (krecv_ok h).1
    refine ⟨⟨by grind, by grind, by grind, by grind⟩, by grind⟩
  | close =>
    simp only [step, S.close, S.closeAsync, S.closeHook] at e
    refine ⟨⟨by grind, by grind, by grind, by grind⟩, by grind⟩
  | connect r =>
    simp only [step, S.connect] at e
    cases r <;> refine ⟨⟨by grind, by grind, by grind, by grind⟩, by grind⟩
  | regHook c' =>
    simp only [step, S.regHook] at e
    refine ⟨⟨by grind, by grind, by grind, by grind⟩, by grind⟩
  | resetHook =>
    simp only [step, S.resetHook] at e
    refine ⟨⟨by grind, by grind, by grind, by grind⟩, by grind⟩
  | _ =>
    simp only [step] at e
    refine ⟨⟨by grind, by grind, by grind, by grind⟩, by grind⟩

/-- A TCP connection that nobody shut down here and that was not reset. -/
structure TInv (s : S) : Prop where
  uds : s.uds = false
  err : s.err = false
  wr : s.shutWr = false
  rd : s.shutRd = false
  shut : s.shut = false
  ok : s.r ≠ .ready .aborted
  to : s.r ≠ .ready .timedOut

theorem krecv_nil {s s2 : S} {n : Nat} (t2 : s.err = false) (t4 : s.shutRd = false)
    (h : s.krecv n = .ok ([], s2)) : n = 0 ∨ s.rx = [] ∧ s.eof = true := by
  unfold S.krecv at h
  split at h
  · left
    rename_i hx
    simp only [Sys.ok.injEq, Prod.mk.injEq, List.take_eq_nil_iff] at h
    rcases h.1 with h | h
    · exact h
    · exact absurd h hx
  · right
    rename_i hx
    simp only [t2, t4, Bool.false_eq_true, if_false, Bool.or_false] at h
    split at h
    · exact ⟨Classical.not_not.mp hx, by assumption⟩
    · simp at h

/-- The acts left out for the reports of an end of file. -/
def Calm : Act → Prop
  | .shutdown _ _ | .reset | .timeoutR | .close | .timeoutW => False
  | _ => True

theorem tcp_step {s s1 : S} {a : Act} {o : List Obs} (h : TInv s) (ha : Calm a)
    (e : cstep s a = some (o, s1)) :
    TInv s1 ∧ (∀ k, .recvErr k ∉ o) ∧
      (.recvd [] ∈ o → s.opened = true → (a = .recv 0 ∨ a = .runR ∧ s.rcap = 0) ∨ s1.rx = [] ∧ s1.eof = true) := by
  unfold cstep at e
  split at e
  case isFalse => simp at e
  obtain ⟨t1, t2, t3, t4, t5, t6, t7⟩ := h
  have kr : ∀ n, s.krecv n ≠ .fail := by intro n; unfold S.krecv; grind
  cases a with
  | dispatch =>
    simp only [step] at e
    split at e
    · have k := wakey_kernel e
      have f := wakey_frame e
      have w := wakey_obs e
      dsimp only at k f w
      have hm : s.mask.wake = .ok := by
        simp [S.mask, Mask.wake, t1, t2, t3]
      refine ⟨⟨by grind, by grind, by grind, by grind, by grind, by grind, by grind⟩, by grind, by grind⟩
    · grind [TInv]
  | recv n =>
    simp only [step] at e
    unfold S.recvTurn at e
    have k1 : ∀ bs s2, s.krecv n = .ok (bs, s2) → s2 = { s with rx := s.rx.drop n } := by
      intro bs s2 h; exact (krecv_ok h).1
    have k2 : ∀ s2, s.krecv n = .ok ([], s2) → n = 0 ∨ s.rx = [] ∧ s.eof = true := by
      intro s2 h; exact krecv_nil t2 t4 h
    refine ⟨⟨by grind, by grind, by grind, by grind, by grind, by grind, by grind⟩, by grind, ?_⟩
    intro hm ho
    simp only [S.isShut, t5, ho] at e
    grind
  | runR =>
    simp only [step] at e
    unfold S.recvTurn at e
    have kr' : ∀ n, ({ s with rptr := .null } : S).krecv n ≠ .fail := by intro n; unfold S.krecv; grind
    have k1 : ∀ n bs s2, ({ s with rptr := .null } : S).krecv n = .ok (bs, s2) →
        s2 = { s with rptr := .null, rx := s.rx.drop n } := by
      intro n bs s2 h; exact (krecv_ok h).1
    have k2 : ∀ n s2, ({ s with rptr := .null } : S).krecv n = .ok ([], s2) →
        n = 0 ∨ s.rx = [] ∧ s.eof = true := by
      intro n s2 h; exact krecv_nil (s := { s with rptr := .null }) t2 t4 h
    refine ⟨⟨by grind, by grind, by grind, by grind, by grind, by grind, by grind⟩, by grind, ?_⟩
    intro hm ho
    simp only [S.isShut, t5, ho] at e
    grind
  | shutdown _ _ => exact absurd ha (by simp [Calm])
  | reset => exact absurd ha (by simp [Calm])
  | timeoutR => exact absurd ha (by simp [Calm])
  | timeoutW => exact absurd ha (by simp [Calm])
  | close => exact absurd ha (by simp [Calm])
  | asyncWrite c' d =>
    simp only [step, S.asyncWrite] at e
    have : ∀ n s2, s.ksend d = .ok (n, s2) → s2 = { s with room := s.room - n } := by
      intro n s2 h; exact (ksend_ok h).1
    refine ⟨⟨by grind, by grind, by grind, by grind, by grind, by grind, by grind⟩, by grind, by grind⟩
  | trySend d =>
    simp only [step, S.trySend] at e
    have : ∀ n s2, s.ksend d = .ok (n, s2) → s2 = { s with room := s.room - n } := by
      intro n s2 h; exact (ksend_ok h).1
    refine ⟨⟨by grind, by grind, by grind, by grind, by grind, by grind, by grind⟩, by grind, by grind⟩
  | write d =>
    simp only [step, S.writeTurn] at e
    have : ∀ n s2, s.ksend d = .ok (n, s2) → s2 = { s with room := s.room - n } := by
      intro n s2 h; exact (ksend_ok h).1
    refine ⟨⟨by grind, by grind, by grind, by grind, by grind, by grind, by grind⟩, by grind, by grind⟩
  | runW =>
    simp only [step] at e
    split at e
    · rename_i k hk
      have : ∀ d n s2, ({ s with wptr := .null } : S).ksend d = .ok (n, s2) →
          s2 = { s with wptr := .null, room := s.room - n } := by
        intro d n s2 h; exact (ksend_ok h).1
      unfold S.writeTurn S.connectDone at e
      refine ⟨⟨by grind, by grind, by grind, by grind, by grind, by grind, by grind⟩, by grind, by grind⟩
    · grind [TInv]
  | tryRecv n =>
    simp only [step] at e
    unfold S.tryRecv at e
    have : ∀ bs s2, s.krecv n = .ok (bs, s2) → s2 = { s with rx := s.rx.drop n } := by
      intro bs s2 h; exact (krecv_ok h).1
    refine ⟨⟨by grind, by grind, by grind, by grind, by grind, by grind, by grind⟩, by grind, by grind⟩
  | connect r =>
    simp only [step, S.connect] at e
    cases r <;>
      refine ⟨⟨by grind, by grind, by grind, by grind, by grind, by grind, by grind⟩, by grind, by grind⟩
  | regHook c' =>
    simp only [step, S.regHook] at e
    refine ⟨⟨by grind, by grind, by grind, by grind, by grind, by grind, by grind⟩, by grind, by grind⟩
  | resetHook =>
    simp only [step, S.resetHook] at e
    refine ⟨⟨by grind, by grind, by grind, by grind, by grind, by grind, by grind⟩, by grind, by grind⟩
  | _ =>
    simp only [step] at e
    refine ⟨⟨by grind, by grind, by grind, by grind, by grind, by grind, by grind⟩, by grind, by grind⟩

end Verif.EpollSock
