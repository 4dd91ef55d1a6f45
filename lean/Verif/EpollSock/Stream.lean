import Verif.EpollSock.Lemmas

/-!
# Received bytes
-/
namespace Verif.EpollSock

theorem arrivedOf_append (a b : List Obs) : arrivedOf (a ++ b) = arrivedOf a ++ arrivedOf b := by
  induction a with
  | nil => rfl
  | cons x a ih => cases x <;> simp [arrivedOf, ih]

theorem recvdOf_append (a b : List Obs) : recvdOf (a ++ b) = recvdOf a ++ recvdOf b := by
  induction a with
  | nil => rfl
  | cons x a ih => cases x <;> simp [recvdOf, ih]

theorem stream_recvTurn (s : S) (n : Nat) :
    recvdOf (s.recvTurn n).1 ++ (s.recvTurn n).2.rx = s.rx ∧ arrivedOf (s.recvTurn n).1 = [] := by
  unfold S.recvTurn
  split
  · simp [recvdOf, arrivedOf]
  · cases hk : s.krecv n with
    | ok p =>
      obtain ⟨bs, s1⟩ := p
      obtain ⟨rfl, rfl⟩ := krecv_ok hk
      simp [recvdOf, arrivedOf]
    | again => simp [recvdOf, arrivedOf]
    | fail => simp [recvdOf, arrivedOf]

theorem stream_tryRecv (s : S) (n : Nat) :
    recvdOf (s.tryRecv n).1 ++ (s.tryRecv n).2.rx = s.rx ∧ arrivedOf (s.tryRecv n).1 = [] := by
  unfold S.tryRecv
  split
  · simp [recvdOf, arrivedOf]
  · cases hk : s.krecv n with
    | ok p =>
      obtain ⟨bs, s1⟩ := p
      obtain ⟨rfl, rfl⟩ := krecv_ok hk
      simp [recvdOf, arrivedOf]
    | again => simp [recvdOf, arrivedOf]
    | fail => simp [recvdOf, arrivedOf]

theorem stream_connectDone (s : S) (k : Wake) :
    recvdOf (s.connectDone k).1 ++ (s.connectDone k).2.rx = s.rx ∧ arrivedOf (s.connectDone k).1 = [] := by
  unfold S.connectDone
  split
  · simp [recvdOf, arrivedOf]
  · split <;> simp [recvdOf, arrivedOf]

theorem ksend_rx {s s1 : S} {n : Nat} {d : List Nat} (h : s.ksend d = .ok (n, s1)) : s1.rx = s.rx := by
  obtain ⟨rfl, -⟩ := ksend_ok h; rfl

theorem stream_writeTurn (s : S) (d : List Nat) :
    recvdOf (s.writeTurn d).1 ++ (s.writeTurn d).2.rx = s.rx ∧ arrivedOf (s.writeTurn d).1 = [] := by
  unfold S.writeTurn
  split
  · simp [recvdOf, arrivedOf]
  · cases hk : s.ksend d with
    | ok p => obtain ⟨n, s1⟩ := p; simp [recvdOf, arrivedOf, ksend_rx hk]
    | again => simp [recvdOf, arrivedOf]
    | fail => simp [recvdOf, arrivedOf]

theorem stream_wakey {s s1 : S} {m : Mask} {o : List Obs} (h : s.wakey m = some (o, s1)) :
    recvdOf o = [] ∧ arrivedOf o = [] ∧ s1.rx = s.rx := by
  unfold S.wakey at h
  cases h1 : s.handleIn m with
  | none => simp [h1] at h
  | some p =>
    obtain ⟨o1, sa⟩ := p
    rw [h1] at h; dsimp only at h
    have ha : recvdOf o1 = [] ∧ arrivedOf o1 = [] ∧ sa.rx = s.rx := by
      unfold S.handleIn at h1
      grind [recvdOf, arrivedOf]
    cases h2 : sa.handleOut m with
    | none => simp [h2] at h
    | some p =>
      obtain ⟨o2, sb⟩ := p
      rw [h2] at h; dsimp only at h
      have hb : recvdOf o2 = [] ∧ arrivedOf o2 = [] ∧ sb.rx = sa.rx := by
        unfold S.handleOut at h2
        grind [recvdOf, arrivedOf, ksend_rx]
      split at h
      · split at h <;> simp only [Option.some.injEq, Prod.mk.injEq] at h <;> obtain ⟨rfl, rfl⟩ := h <;>
          simp [recvdOf_append, arrivedOf_append, ha, hb, recvdOf, arrivedOf]
      · simp only [Option.some.injEq, Prod.mk.injEq] at h; obtain ⟨rfl, rfl⟩ := h
        simp [recvdOf_append, arrivedOf_append, ha, hb]

theorem stream_step {s s1 : S} {a : Act} {o : List Obs} (hc : ∀ r, a ≠ .connect r)
    (e : cstep s a = some (o, s1)) : recvdOf o ++ s1.rx = s.rx ++ arrivedOf o := by
  unfold cstep at e
  split at e
  case isFalse => simp at e
  cases a with
  | connect r => exact absurd rfl (hc r)
  | dispatch =>
    simp only [step] at e
    split at e
    · have := stream_wakey e; simp [this]
    · simp only [Option.some.injEq, Prod.mk.injEq] at e; obtain ⟨rfl, rfl⟩ := e; simp [recvdOf, arrivedOf]
  | shutdown rd wr =>
    simp only [step, S.shutdown] at e
    have := stream_wakey e
    rw [this.1, this.2.1, this.2.2]
    split <;> simp
  | close =>
    simp only [step, S.close, S.closeAsync, S.closeHook] at e
    grind [recvdOf, arrivedOf]
  | recv n =>
    simp only [step] at e
    have := stream_recvTurn s n
    grind
  | write d =>
    simp only [step] at e
    have := stream_writeTurn s d
    grind
  | runR =>
    simp only [step] at e
    have := stream_recvTurn { s with rptr := .null } s.rcap
    grind [recvdOf, arrivedOf]
  | runW =>
    simp only [step] at e
    split at e
    · rename_i k hk
      split at e
      · simp only [Option.some.injEq] at e
        have := stream_connectDone { s with wptr := .null } k
        rw [e] at this; simp [this]
      · rename_i d hd
        cases k with
        | ok =>
          simp only [Option.some.injEq] at e
          have := stream_writeTurn { s with wptr := .null } d
          rw [e] at this; simp [this]
        | aborted => grind [recvdOf, arrivedOf]
        | timedOut => grind [recvdOf, arrivedOf]
    · grind [recvdOf, arrivedOf]
  | asyncWrite c d =>
    simp only [step, S.asyncWrite] at e
    grind [recvdOf, arrivedOf, ksend_rx]
  | trySend d =>
    simp only [step, S.trySend] at e
    grind [recvdOf, arrivedOf, ksend_rx]
  | tryRecv n =>
    simp only [step, Option.some.injEq] at e
    have := stream_tryRecv s n
    rw [e] at this; simp [this]
  | regHook c =>
    simp only [step, S.regHook] at e
    grind [recvdOf, arrivedOf]
  | resetHook =>
    simp only [step, S.resetHook] at e
    grind [recvdOf, arrivedOf]
  | _ =>
    simp only [step] at e
    grind [recvdOf, arrivedOf]

end Verif.EpollSock
