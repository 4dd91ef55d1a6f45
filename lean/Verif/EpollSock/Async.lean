import Verif.EpollSock.Writes

/-!
# Asynchronous writes
-/
namespace Verif.EpollSock

theorem issuedOf_append (c : Nat) (a b : List Obs) : issuedOf c (a ++ b) = issuedOf c a ++ issuedOf c b := by
  induction a with
  | nil => rfl
  | cons x a ih => cases x <;> simp [issuedOf, ih]; split <;> simp

theorem doneOf_append (c : Nat) (a b : List Obs) : doneOf c (a ++ b) = doneOf c a ++ doneOf c b := by
  induction a with
  | nil => rfl
  | cons x a ih => cases x <;> simp [doneOf, ih]; split <;> simp

theorem wireOf_append (c : Nat) (a b : List Obs) : wireOf c (a ++ b) = wireOf c a ++ wireOf c b := by
  induction a with
  | nil => rfl
  | cons x a ih =>
    cases x with
    | wire src bs => cases src <;> simp [wireOf, ih]; split <;> simp
    | _ => simp [wireOf, ih]

theorem errsOf_append (c : Nat) (a b : List Obs) : errsOf c (a ++ b) = errsOf c a + errsOf c b := by
  induction a with
  | nil => simp [errsOf]
  | cons x a ih => cases x <;> simp [errsOf, ih]; split <;> omega

/-- The dispatched calls of callback `c`. -/
def briefOf (c : Nat) (l : List (Nat × Except EKind Nat)) : List (Except EKind Nat) :=
  l.filterMap fun p => if p.1 = c then some p.2 else none

theorem briefOf_append (c : Nat) (a b) : briefOf c (a ++ b) = briefOf c a ++ briefOf c b := by
  simp [briefOf]

/-- `w` is what the kernel must have taken if the callback gets `r`. -/
def Matches (r : Except EKind Nat) (d : List Nat) (w : List (List Nat)) : Prop :=
  match r with
  | .ok n => n ≤ d.length ∧ w = [d.take n]
  | .error _ => w = []

/-- Nothing in `o` is about asynchronous writes. -/
def Quiet (o : List Obs) : Prop := ∀ c, issuedOf c o = [] ∧ doneOf c o = [] ∧ wireOf c o = []

/-- The life of the asynchronous write with callback `c`. -/
def Ast (c : Nat) (O : List Obs) (s : S) : Prop :=
  (issuedOf c O = [] ∧ doneOf c O = [] ∧ wireOf c O = [] ∧ briefOf c s.brief = [] ∧
    ∀ d, s.wptr ≠ .areq d c) ∨
  (∃ d, issuedOf c O = [d] ∧
    ((s.wptr = .areq d c ∧ doneOf c O = [] ∧ wireOf c O = [] ∧ briefOf c s.brief = []) ∨
     (∃ r, briefOf c s.brief = [r] ∧ doneOf c O = [] ∧ (∀ d, s.wptr ≠ .areq d c) ∧
        Matches r d (wireOf c O)) ∨
     (∃ r, briefOf c s.brief = [] ∧ doneOf c O = [r] ∧ (∀ d, s.wptr ≠ .areq d c) ∧
        Matches r d (wireOf c O))))

theorem Ast.quiet {c : Nat} {O o : List Obs} {s s1 : S} (h : Ast c O s) (hq : Quiet o)
    (hb : s1.brief = s.brief) (hw : ∀ d, s1.wptr = .areq d c ↔ s.wptr = .areq d c) :
    Ast c (O ++ o) s1 := by
  obtain ⟨q1, q2, q3⟩ := hq c
  unfold Ast at *
  simp only [issuedOf_append, doneOf_append, wireOf_append, q1, q2, q3, List.append_nil, hb]
  grind

/-- A request that was waiting is finished by this step. -/
theorem Ast.finish {c c' : Nat} {O o : List Obs} {s s1 : S} {d : List Nat} {r : Except EKind Nat}
    (h : Ast c O s) (hw : s.wptr = .areq d c') (hw1 : s1.wptr = .null) (hb : s1.brief = s.brief)
    (hi : ∀ c, issuedOf c o = []) (hd : ∀ c, doneOf c o = if c' = c then [r] else [])
    (hm : Matches r d (wireOf c' o)) (hn : ∀ c, c' ≠ c → wireOf c o = []) : Ast c (O ++ o) s1 := by
  unfold Ast at *
  simp only [issuedOf_append, doneOf_append, wireOf_append, hi, hd, List.append_nil, hb, hw1]
  by_cases e : c' = c
  · subst e
    rw [hw] at h
    rcases h with ⟨-, -, -, -, h⟩ | ⟨d', h1, h2⟩
    · exact absurd rfl (h d)
    · rcases h2 with ⟨h3, h4, h5, h6⟩ | ⟨_, _, _, h, _⟩ | ⟨_, _, _, h, _⟩
      · simp only [WPtr.areq.injEq, and_true] at h3
        subst h3
        right
        refine ⟨d, h1, ?_⟩
        right; right
        exact ⟨r, h6, by simp [h4], by simp, by simp [h5, hm]⟩
      · exact absurd rfl (h d)
      · exact absurd rfl (h d)
  · rw [hw] at h
    simp only [hn c e, if_neg e, List.append_nil]
    have : ∀ d', WPtr.areq d c' = WPtr.areq d' c → False := by
      intro d' h; simp only [WPtr.areq.injEq] at h; exact e h.2
    grind

theorem quiet_nil : Quiet [] := fun c => by simp [issuedOf, doneOf, wireOf]

theorem Quiet.append {a b : List Obs} (ha : Quiet a) (hb : Quiet b) : Quiet (a ++ b) := by
  intro c; obtain ⟨h1, h2, h3⟩ := ha c; obtain ⟨h4, h5, h6⟩ := hb c
  simp [issuedOf_append, doneOf_append, wireOf_append, *]

theorem handleIn_quiet {s s1 : S} {m : Mask} {o : List Obs} (h : s.handleIn m = some (o, s1)) :
    Quiet o := by
  unfold S.handleIn at h
  repeat' split at h
  all_goals simp only [Option.some.injEq, Prod.mk.injEq, reduceCtorEq] at h
  all_goals obtain ⟨rfl, rfl⟩ := h
  all_goals simp [Quiet, issuedOf, doneOf, wireOf]

theorem async_handleOut {c : Nat} {O : List Obs} {s s1 : S} {m : Mask} {o : List Obs} (h : Ast c O s)
    (e : s.handleOut m = some (o, s1)) : Ast c (O ++ o) s1 := by
  unfold S.handleOut at e
  split at e
  · simp only [Option.some.injEq, Prod.mk.injEq] at e; obtain ⟨rfl, rfl⟩ := e
    exact h.quiet quiet_nil rfl (fun _ => Iff.rfl)
  split at e
  · split at e
    · rename_i d c' hc
      cases hk : s.ksend d with
      | ok p =>
        obtain ⟨n, s2⟩ := p
        obtain ⟨rfl, hn, -⟩ := ksend_ok hk
        rw [hk] at e
        simp only [Option.some.injEq, Prod.mk.injEq] at e
        obtain ⟨rfl, rfl⟩ := e
        refine h.finish (r := .ok n) hc rfl rfl ?_ ?_ ?_ ?_
        · simp [issuedOf]
        · simp [doneOf]
        · simp only [wireOf, if_true]
          exact ⟨by omega, rfl⟩
        · intro c hne; simp [wireOf, hne]
      | again =>
        rw [hk] at e
        simp only [Option.some.injEq, Prod.mk.injEq] at e; obtain ⟨rfl, rfl⟩ := e
        exact h.quiet quiet_nil rfl (fun _ => Iff.rfl)
      | fail =>
        rw [hk] at e
        simp only [Option.some.injEq, Prod.mk.injEq] at e; obtain ⟨rfl, rfl⟩ := e
        refine h.finish (r := .error .sys) hc rfl rfl ?_ ?_ ?_ ?_
        · simp [issuedOf]
        · simp [doneOf]
        · simp [wireOf, Matches]
        · intro c hne; simp [wireOf]
    · simp at e
  · repeat' split at e
    all_goals simp only [Option.some.injEq, Prod.mk.injEq, reduceCtorEq] at e
    all_goals obtain ⟨rfl, rfl⟩ := e
    all_goals exact h.quiet quiet_nil rfl (fun _ => Iff.rfl)

theorem async_wakey {c : Nat} {O : List Obs} {s s1 : S} {m : Mask} {o : List Obs} (h : Ast c O s)
    (e : s.wakey m = some (o, s1)) : Ast c (O ++ o) s1 := by
  unfold S.wakey at e
  cases h1 : s.handleIn m with
  | none => simp [h1] at e
  | some p =>
    obtain ⟨o1, sa⟩ := p
    rw [h1] at e; dsimp only at e
    have fr := handleIn_frame h1
    have ha : Ast c (O ++ o1) sa :=
      h.quiet (handleIn_quiet h1) fr.2.2.2.2.2.1 (fun d => by rw [fr.2.2.2.1])
    cases h2 : sa.handleOut m with
    | none => simp [h2] at e
    | some p =>
      obtain ⟨o2, sb⟩ := p
      rw [h2] at e; dsimp only at e
      have hb := async_handleOut ha h2
      rw [List.append_assoc] at hb
      split at e
      · split at e
        · simp only [Option.some.injEq, Prod.mk.injEq] at e; obtain ⟨rfl, rfl⟩ := e
          rw [← List.append_assoc]
          exact hb.quiet (by simp [Quiet, issuedOf, doneOf, wireOf]) rfl (fun _ => Iff.rfl)
        · simp only [Option.some.injEq, Prod.mk.injEq] at e; obtain ⟨rfl, rfl⟩ := e; exact hb
      · simp only [Option.some.injEq, Prod.mk.injEq] at e; obtain ⟨rfl, rfl⟩ := e; exact hb

theorem async_issue {c c' : Nat} {O : List Obs} {s s1 : S} {d : List Nat} {o : List Obs} (h : Ast c O s)
    (hu : (issuedOf c (O ++ o)).length ≤ 1) (e : s.asyncWrite c' d = some (o, s1)) :
    Ast c (O ++ o) s1 := by
  have key : ∀ (w : List (List Nat)) (r : Except EKind Nat), Matches r d w →
      wireOf c' o = w → (∀ c, c' ≠ c → wireOf c o = []) → (∀ c, doneOf c o = []) →
      (∀ c, issuedOf c o = if c' = c then [d] else []) →
      s1.brief = s.brief ++ [(c', r)] → s1.wptr = s.wptr → Ast c (O ++ o) s1 := by
    intro w r hm hw hw' hd hi hb hp
    unfold Ast at *
    rw [issuedOf_append, hi] at hu
    simp only [issuedOf_append, doneOf_append, wireOf_append, hi, hd, List.append_nil, hb, hp,
      briefOf_append]
    by_cases ec : c' = c
    · subst ec
      simp only [if_true, List.length_append, List.length_singleton] at hu
      have h0 : issuedOf c' O = [] := List.length_eq_zero_iff.mp (by omega)
      rcases h with ⟨-, h2, h3, h4, h5⟩ | ⟨d', h1, -⟩
      · right
        refine ⟨d, by simp [h0], ?_⟩
        right; left
        exact ⟨r, by rw [h4]; simp [briefOf], h2, h5, by rw [h3, hw]; simpa using hm⟩
      · simp [h0] at h1
    · simp only [hw' c ec, if_neg ec, List.append_nil]
      have : briefOf c [(c', r)] = [] := by simp [briefOf, ec]
      simp only [this, List.append_nil]
      exact h
  unfold S.asyncWrite at e
  split at e
  · simp only [Option.some.injEq, Prod.mk.injEq] at e; obtain ⟨rfl, rfl⟩ := e
    exact key [] (.error .pipe) (by simp [Matches]) (by simp [wireOf]) (by simp [wireOf])
      (by simp [doneOf]) (by simp [issuedOf]) rfl rfl
  · cases hk : s.ksend d with
    | ok p =>
      obtain ⟨n, s2⟩ := p
      obtain ⟨rfl, hn, -⟩ := ksend_ok hk
      rw [hk] at e
      simp only [Option.some.injEq, Prod.mk.injEq] at e; obtain ⟨rfl, rfl⟩ := e
      exact key [d.take n] (.ok n) ⟨by omega, rfl⟩ (by simp [wireOf])
        (by intro c hne; simp [wireOf, hne]) (by simp [doneOf]) (by simp [issuedOf]) rfl rfl
    | fail =>
      rw [hk] at e
      simp only [Option.some.injEq, Prod.mk.injEq] at e; obtain ⟨rfl, rfl⟩ := e
      exact key [] (.error .sys) (by simp [Matches]) (by simp [wireOf]) (by simp [wireOf])
        (by simp [doneOf]) (by simp [issuedOf]) rfl rfl
    | again =>
      rw [hk] at e; dsimp only at e
      split at e
      case h_2 => simp at e
      rename_i hnull
      simp only [Option.some.injEq, Prod.mk.injEq] at e; obtain ⟨rfl, rfl⟩ := e
      unfold Ast at *
      rw [issuedOf_append] at hu
      simp only [issuedOf_append, doneOf_append, wireOf_append, doneOf, wireOf, List.append_nil]
      by_cases ec : c' = c
      · subst ec
        simp only [issuedOf, if_true, List.length_append, List.length_singleton] at hu ⊢
        have h0 : issuedOf c' O = [] := List.length_eq_zero_iff.mp (by omega)
        rcases h with ⟨-, h2, h3, h4, h5⟩ | ⟨d', h1, -⟩
        · right
          exact ⟨d, by simp [h0], Or.inl ⟨rfl, h2, h3, h4⟩⟩
        · simp [h0] at h1
      · simp only [issuedOf, if_neg ec, List.append_nil]
        rw [hnull] at h
        have : ∀ d', WPtr.areq d c' = WPtr.areq d' c → False := by
          intro d' h; simp only [WPtr.areq.injEq] at h; exact ec h.2
        grind

theorem async_brief {c : Nat} {O : List Obs} {s : S} {c' : Nat} {r : Except EKind Nat}
    {l : List (Nat × Except EKind Nat)} (h : Ast c O s) (hb : s.brief = (c', r) :: l) :
    Ast c (O ++ [.done c' r]) { s with brief := l } := by
  unfold Ast at *
  simp only [issuedOf_append, doneOf_append, wireOf_append, issuedOf, doneOf, wireOf, List.append_nil]
  have hcons : briefOf c s.brief = (if c' = c then [r] else []) ++ briefOf c l := by
    rw [hb]; unfold briefOf; by_cases ec : c' = c <;> simp [ec]
  rw [hcons] at h
  by_cases ec : c' = c
  · simp only [ec, if_true, List.singleton_append, List.cons_append, List.nil_append, reduceCtorEq,
      false_and, and_false, false_or, or_false, List.cons.injEq, exists_false] at h ⊢
    obtain ⟨d, h1, r', ⟨rfl, h2⟩, h3, h4, h5⟩ := h
    right
    exact ⟨d, h1, Or.inr (Or.inr ⟨r, h2, by simp [h3], h4, h5⟩)⟩
  · simp only [ec, if_false, List.nil_append, List.append_nil] at h ⊢
    exact h

theorem async_step {c : Nat} {O : List Obs} {s s1 : S} {a : Act} {o : List Obs} (hI : Inv s)
    (h : Ast c O s) (hu : (issuedOf c (O ++ o)).length ≤ 1) (e : cstep s a = some (o, s1)) :
    Ast c (O ++ o) s1 := by
  unfold cstep at e
  split at e
  case isFalse => simp at e
  obtain ⟨h1, h2, h3, h4, h5, h6, h7, h8, h9, h10, h11⟩ := hI
  cases a with
  | dispatch =>
    simp only [step] at e
    split at e
    · exact async_wakey (s := { s with edge := false }) h e
    · simp only [Option.some.injEq, Prod.mk.injEq] at e; obtain ⟨rfl, rfl⟩ := e
      exact h.quiet quiet_nil rfl (fun _ => Iff.rfl)
  | shutdown rd wr =>
    simp only [step, S.shutdown] at e
    refine async_wakey ?_ e
    split <;> exact h
  | close =>
    simp only [step, S.close, S.closeAsync] at e
    split at e
    · by_cases hh : s.apend = true
      · rw [if_pos hh] at e
        obtain ⟨d, c', hc⟩ := h5.mp hh
        rw [hc] at e
        simp only [Option.some.injEq, Prod.mk.injEq] at e; obtain ⟨rfl, rfl⟩ := e
        refine h.finish (r := .error .aborted) hc ?_ ?_ ?_ ?_ ?_ ?_
        · unfold S.closeHook; split <;> rfl
        · unfold S.closeHook; split <;> rfl
        · simp [issuedOf]
        · simp [doneOf]
        · simp [wireOf, Matches]
        · intro c hne; simp [wireOf]
      · rw [if_neg hh] at e
        simp only [Option.some.injEq, Prod.mk.injEq] at e; obtain ⟨rfl, rfl⟩ := e
        refine h.quiet quiet_nil ?_ ?_
        · unfold S.closeHook; split <;> rfl
        · intro d; unfold S.closeHook; split <;> rfl
    · simp only [Option.some.injEq, Prod.mk.injEq] at e; obtain ⟨rfl, rfl⟩ := e
      exact h.quiet quiet_nil rfl (fun _ => Iff.rfl)
  | asyncWrite c' d => exact async_issue h hu e
  | runBrief =>
    simp only [step] at e
    split at e
    · rename_i hb
      simp only [Option.some.injEq, Prod.mk.injEq] at e; obtain ⟨rfl, rfl⟩ := e
      exact async_brief h hb
    · simp only [Option.some.injEq, Prod.mk.injEq] at e; obtain ⟨rfl, rfl⟩ := e
      exact h.quiet quiet_nil rfl (fun _ => Iff.rfl)
  | recv n =>
    simp only [step] at e
    unfold S.recvTurn at e
    have : ∀ bs s2, s.krecv n = .ok (bs, s2) → s2.brief = s.brief ∧ s2.wptr = s.wptr := by
      intro bs s2 h; obtain ⟨rfl, -⟩ := krecv_ok h; simp
    refine h.quiet ?_ ?_ ?_
    · unfold Quiet; grind [issuedOf, doneOf, wireOf]
    · grind
    · grind
  | runR =>
    simp only [step] at e
    unfold S.recvTurn at e
    have : ∀ n bs s2, ({ s with rptr := .null } : S).krecv n = .ok (bs, s2) →
        s2.brief = s.brief ∧ s2.wptr = s.wptr := by
      intro n bs s2 h; obtain ⟨rfl, -⟩ := krecv_ok h; simp
    refine h.quiet ?_ ?_ ?_
    · unfold Quiet; grind [issuedOf, doneOf, wireOf]
    · grind
    · grind
  | tryRecv n =>
    simp only [step] at e
    unfold S.tryRecv at e
    have : ∀ bs s2, s.krecv n = .ok (bs, s2) → s2.brief = s.brief ∧ s2.wptr = s.wptr := by
      intro bs s2 h; obtain ⟨rfl, -⟩ := krecv_ok h; simp
    refine h.quiet ?_ ?_ ?_
    · unfold Quiet; grind [issuedOf, doneOf, wireOf]
    · grind
    · grind
  | trySend d =>
    simp only [step, S.trySend] at e
    have : ∀ n s2, s.ksend d = .ok (n, s2) → s2.brief = s.brief ∧ s2.wptr = s.wptr := by
      intro n s2 h; obtain ⟨rfl, -⟩ := ksend_ok h; simp
    refine h.quiet ?_ ?_ ?_
    · unfold Quiet; grind [issuedOf, doneOf, wireOf]
    · grind
    · grind
  | write d =>
    simp only [step, S.writeTurn] at e
    have : ∀ n s2, s.ksend d = .ok (n, s2) → s2.brief = s.brief ∧ s2.wptr = s.wptr := by
      intro n s2 h; obtain ⟨rfl, -⟩ := ksend_ok h; simp
    refine h.quiet ?_ ?_ ?_
    · unfold Quiet; grind [issuedOf, doneOf, wireOf]
    · grind
    · grind
  | runW =>
    simp only [step] at e
    split at e
    · rename_i k hk
      have hp : s.wptr = .pend := h4.mpr (by rw [hk]; simp)
      have : ∀ d n s2, ({ s with wptr := .null } : S).ksend d = .ok (n, s2) →
          s2.brief = s.brief ∧ s2.wptr = .null := by
        intro d n s2 h; obtain ⟨rfl, -⟩ := ksend_ok h; simp
      unfold S.writeTurn S.connectDone at e
      refine h.quiet ?_ ?_ ?_
      · unfold Quiet; grind [issuedOf, doneOf, wireOf]
      · grind
      · grind
    · simp only [Option.some.injEq, Prod.mk.injEq] at e; obtain ⟨rfl, rfl⟩ := e
      exact h.quiet quiet_nil rfl (fun _ => Iff.rfl)
  | connect r =>
    simp only [step, S.connect] at e
    refine h.quiet ?_ ?_ ?_
    · unfold Quiet; cases r <;> grind [issuedOf, doneOf, wireOf]
    · cases r <;> grind
    · cases r <;> grind
  | regHook c =>
    simp only [step, S.regHook] at e
    refine h.quiet ?_ ?_ ?_
    · unfold Quiet; grind [issuedOf, doneOf, wireOf]
    · grind
    · grind
  | resetHook =>
    simp only [step, S.resetHook] at e
    refine h.quiet ?_ ?_ ?_
    · unfold Quiet; grind [issuedOf, doneOf, wireOf]
    · grind
    · grind
  | _ =>
    simp only [step] at e
    refine h.quiet ?_ ?_ ?_
    · unfold Quiet; grind [issuedOf, doneOf, wireOf]
    · grind
    · grind

theorem crun_cons {a : Act} {acts : List Act} {s s1 : S} {os : List (List Obs)}
    (e : crun s (a :: acts) = some (os, s1)) :
    ∃ o s2 os2, cstep s a = some (o, s2) ∧ crun s2 acts = some (os2, s1) ∧ os = o :: os2 := by
  simp only [crun, Common.run] at e
  cases hs : cstep s a with
  | none => simp [hs] at e
  | some p =>
    obtain ⟨o, s2⟩ := p
    simp only [hs] at e
    cases hr : Common.run cstep s2 acts with
    | none => simp [hr] at e
    | some p2 =>
      obtain ⟨os2, s3⟩ := p2
      simp only [hr, Option.some.injEq, Prod.mk.injEq] at e
      obtain ⟨rfl, rfl⟩ := e
      exact ⟨o, s2, os2, rfl, hr, rfl⟩

theorem async_run {c : Nat} : ∀ (acts : List Act) (O : List Obs) (s s1 : S) (os : List (List Obs)),
    Inv s → Ast c O s → crun s acts = some (os, s1) → (issuedOf c (O ++ os.flatten)).length ≤ 1 →
    Ast c (O ++ os.flatten) s1 := by
  intro acts
  induction acts with
  | nil =>
    intro O s s1 os _ h e _
    simp only [crun, Common.run, Option.some.injEq, Prod.mk.injEq] at e
    obtain ⟨rfl, rfl⟩ := e
    simpa using h
  | cons a acts ih =>
    intro O s s1 os hI h e hu
    obtain ⟨o, s2, os2, h1, h2, rfl⟩ := crun_cons e
    rw [List.flatten_cons, ← List.append_assoc] at hu ⊢
    refine ih _ _ _ _ (inv_step hI h1) (async_step hI h ?_ h1) h2 hu
    rw [issuedOf_append] at hu
    rw [List.length_append] at hu
    omega

end Verif.EpollSock
