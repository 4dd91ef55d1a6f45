import Verif.UPoll.EntFin
/-! The invariant of all reachable states. -/
namespace Verif.UPoll
open Verif.Common

theorem NInv.step {s s2 : S} (h : NInv s) (hR : RInv s) (hW : WInv s) {a : Act} (e : s.step a = some s2) : NInv s2 := by
  have calls : ((∃ i k, a = .reg i k) ∨ (∃ i k, a = .cancel i k) ∨ (∃ i, a = .close i) ∨ ∃ k, a = .other k) → NInv s2 := by
    intro ha
    obtain ⟨h1, _⟩ := calls_shape hW e ha
    rcases h1 with h1 | ⟨k, kind, h1, h2, _⟩
    · exact h.congr h1
    · exact h.append h1
  cases a with
  | reg sock k => exact calls (.inl ⟨_, _, rfl⟩)
  | cancel sock k => exact calls (.inr (.inl ⟨_, _, rfl⟩))
  | close sock => exact calls (.inr (.inr (.inl ⟨_, rfl⟩)))
  | other k => exact calls (.inr (.inr (.inr ⟨_, rfl⟩)))
  | add k =>
    simp only [S.step, S.add] at e
    split at e
    · simp only [Option.some.injEq] at e; subst e
      exact h.append rfl
    · cases e
  | del x k =>
    simp only [S.step, S.del] at e
    split at e
    · cases e
    · split at e
      · cases e
      · split at e
        · simp only [Option.some.injEq] at e; subst e
          exact h.congr rfl
        · split at e
          · simp only [Option.some.injEq] at e; subst e
            exact h.append rfl
          · cases e
  | retry i k =>
    simp only [S.step] at e
    split at e
    · cases e
    · split at e
      · simp only [Option.some.injEq] at e; subst e
        exact h.append rfl
      · cases e
  | submit => exact h.kstep (kernel_shape hR e (by simp))
  | removeHit r => exact h.kstep (kernel_shape hR e (by simp))
  | removeBusy r => exact h.kstep (kernel_shape hR e (by simp))
  | removeMiss => exact h.kstep (kernel_shape hR e (by simp))
  | event r m b => exact h.kstep (kernel_shape hR e (by simp))
  | die r => exact h.kstep (kernel_shape hR e (by simp))
  | fail r => exact h.kstep (kernel_shape hR e (by simp))
  | complete k =>
    obtain ⟨c, rest, q, hc, hslot, hq, hu, ng, nq, hd, e⟩ := complete_eq hR e
    have hp : NInv (s.popped c rest) := h.popped
    unfold S.run at e
    split at e
    · rename_i w hk
      simp only [Option.some.injEq] at e; subst e
      obtain ⟨r1, _, r3, _⟩ := runErr_ring (s.popped c rest) w c.res
      exact hp.congr r1
    · rename_i en hk
      rcases runEnt_cases e with ⟨e, _⟩ | ⟨x, _, _, ⟨m, _, _, e⟩ | ⟨m, _, _, hk, e⟩ | ⟨_, e⟩⟩
      · subst e; exact hp.congr rfl
      · subst e; exact hp.congr rfl
      · subst e
        exact hp.append rfl
      · subst e
        split <;> exact hp.congr rfl
    · simp only [Option.some.injEq] at e; subst e; exact hp.congr rfl
    · split at e <;> simp only [Option.some.injEq] at e <;> subst e <;> exact hp.congr rfl
    · simp only [Option.some.injEq] at e; subst e; exact hp

/-- Only events are followed by more completions. -/
def MInv (s : S) : Prop := ∀ c ∈ s.cq, c.more = true → ∃ m, c.res = .ev m

theorem MInv.kern {s t : S} {r : Nat} {q : R} {st : Stage} {post : List Cqe} (h : MInv s) (k : Kern s t r q st post)
    (hp : ∀ c ∈ post, c.more = true → ∃ m, c.res = .ev m) : MInv t := by
  intro c hc
  rw [k.cq] at hc
  rcases List.mem_append.1 hc with hc | hc
  · exact h c hc
  · exact hp c hc

theorem MInv.kstep {s t : S} (h : MInv s) (k : KStep s t) : MInv t := by
  cases k with
  | take p q k hs hk => exact h.kern k (by simp)
  | hit p r q q' s1 c k1 k2 hpr hsq hs hs' hk hc => exact (h.kern k1 (by simp)).kern k2 (by simp [hc.2.2])
  | busy p q c k hs hk hc => exact h.kern k (by simp [hc.2.2])
  | miss p q c k hs u hsq hk hc hm => exact h.kern k (by simp [hc.2.2])
  | event r q c m st k hs hst hc => exact h.kern k (by simp [hc.2.1])
  | die r q c k hs hc => exact h.kern k (by simp [hc.2.2])
  | fail r q c k hs hc => exact h.kern k (by simp [hc.2.2])

theorem MInv.congr {s t : S} (h : MInv s) (e : t.cq = s.cq) : MInv t := by
  intro c hc; rw [e] at hc; exact h c hc

theorem MInv.step {s s2 : S} (h : MInv s) (hR : RInv s) (hW : WInv s) {a : Act} (e : s.step a = some s2) : MInv s2 := by
  have calls : ((∃ i k, a = .reg i k) ∨ (∃ i k, a = .cancel i k) ∨ (∃ i, a = .close i) ∨ ∃ k, a = .other k) → MInv s2 := by
    intro ha
    obtain ⟨_, _, _, _, h5, _⟩ := calls_shape hW e ha
    exact h.congr h5
  cases a with
  | reg sock k => exact calls (.inl ⟨_, _, rfl⟩)
  | cancel sock k => exact calls (.inr (.inl ⟨_, _, rfl⟩))
  | close sock => exact calls (.inr (.inr (.inl ⟨_, rfl⟩)))
  | other k => exact calls (.inr (.inr (.inr ⟨_, rfl⟩)))
  | add k =>
    simp only [S.step, S.add] at e
    split at e
    · simp only [Option.some.injEq] at e; subst e
      exact h.congr rfl
    · cases e
  | del x k =>
    simp only [S.step, S.del] at e
    split at e
    · cases e
    · split at e
      · cases e
      · split at e
        · simp only [Option.some.injEq] at e; subst e
          exact h.congr rfl
        · split at e
          · simp only [Option.some.injEq] at e; subst e
            exact h.congr rfl
          · cases e
  | retry i k =>
    simp only [S.step] at e
    split at e
    · cases e
    · split at e
      · simp only [Option.some.injEq] at e; subst e
        exact h.congr rfl
      · cases e
  | submit => exact h.kstep (kernel_shape hR e (by simp))
  | removeHit r => exact h.kstep (kernel_shape hR e (by simp))
  | removeBusy r => exact h.kstep (kernel_shape hR e (by simp))
  | removeMiss => exact h.kstep (kernel_shape hR e (by simp))
  | event r m b => exact h.kstep (kernel_shape hR e (by simp))
  | die r => exact h.kstep (kernel_shape hR e (by simp))
  | fail r => exact h.kstep (kernel_shape hR e (by simp))
  | complete k =>
    obtain ⟨c, rest, q, hc, hslot, hq, hu, ng, nq, hd, e⟩ := complete_eq hR e
    obtain ⟨_, _, _, _, f5, _⟩ := popped_rest (s := s) (c := c) (rest := rest)
    have hp : MInv (s.popped c rest) := by
      intro a ha
      rw [f5] at ha
      exact h a (by rw [hc]; exact List.mem_cons_of_mem _ ha)
    unfold S.run at e
    split at e
    · rename_i w hk
      simp only [Option.some.injEq] at e; subst e
      obtain ⟨r1, _, r3, _⟩ := runErr_ring (s.popped c rest) w c.res
      exact hp.congr r3
    · rename_i en hk
      rcases runEnt_cases e with ⟨e, _⟩ | ⟨x, _, _, ⟨m, _, _, e⟩ | ⟨m, _, _, hk, e⟩ | ⟨_, e⟩⟩
      · subst e; exact hp.congr rfl
      · subst e; exact hp.congr rfl
      · subst e; exact hp.congr rfl
      · subst e
        split <;> exact hp.congr rfl
    · simp only [Option.some.injEq] at e; subst e; exact hp.congr rfl
    · split at e <;> simp only [Option.some.injEq] at e <;> subst e <;> exact hp.congr rfl
    · simp only [Option.some.injEq] at e; subst e; exact hp

theorem EInv.complete {s s2 : S} (h : EInv s) (hR : RInv s) (hW : WInv s) (hM : MInv s) {k : Nat} (e : s.complete k = some s2) : EInv s2 := by
  obtain ⟨c, rest, q, hc, hslot, hq, hu, ng, nq, hd, e⟩ := complete_eq hR e
  obtain ⟨f1, f2, f3, f4, f5, f6, f7, f8, f9, f10, f11, _⟩ := popped_rest (s := s) (c := c) (rest := rest)
  have hcm : c ∈ s.cq := by rw [hc]; exact List.mem_cons_self
  have hRp := hR.popped hc
  unfold S.run at e
  split at e
  · rename_i w hk
    have hp := h.popped hc hq (by rw [hk]; simp)
    simp only [Option.some.injEq] at e; subst e
    obtain ⟨r1, _, r3, _⟩ := runErr_ring (s.popped c rest) w c.res
    obtain ⟨r4, r5, r6, r7, r8⟩ := runErr_rest (s := s.popped c rest) (w := w) (res := c.res)
    exact hp.quiet hRp r1 r4 r3 r6 r7 r8
  · rename_i en hk
    obtain ⟨x, hx, hxr⟩ := h.e2 _ q en hq hk
    have hxr := hxr.resolve_right ng
    have hf : x.freed = false := by
      obtain ⟨q1, hq1, _, _, h1⟩ := h.e1 en x hx
      rw [hxr, hq] at hq1; cases hq1
      cases hf : x.freed with
      | false => rfl
      | true => exact absurd (h1.1 hf) ng
    rcases runEnt_cases e with ⟨_, e⟩ | ⟨x2, hx2, _, hcase⟩
    · have := e x (by rw [f2]; exact hx)
      rw [hf] at this; cases this
    rw [f2, hx] at hx2; cases hx2
    rcases hcase with ⟨m, hm, hmore, e⟩ | ⟨m, hm, hmore, hk', e⟩ | ⟨hm, e⟩
    · subst e
      have hp := h.popped hc hq (fun _ _ => hmore)
      have hq' : (s.popped c rest).reqs[c.rid]? = some q := by
        rw [popped_get, if_neg]
        · exact hq
        · rintro ⟨h1, _⟩; rw [hmore] at h1; cases h1
      refine hp.event (by rw [f2]; exact hx) hf hq' hk (by rw [f4]; exact hW.l5 c hcm m hm) ?_
      rw [f4]
      intro hde
      rcases (h.e8 en hde).2 with h1 | ⟨y, hy, _, h1⟩
      · exact h1
      · rw [hx] at hy; cases hy
        exact absurd hm (h1 c hcm hxr.symm m)
    · subst e
      have hlt : c.rid < s.reqs.length := lt_of_get hq
      have len : (s.popped c rest).reqs.length = s.reqs.length := f11
      refine h.final hR hc hmore hq hk hx hf hxr (x' := { x with rid := s.reqs.length, ud := (k, s.tag) })
        (evs := [.event en m, .rearm en]) ?_ ?_ ?_ ?_ f5 f10 f8 ?_ ?_ rfl ?_ ?_ ?_ ?_ ?_ ?_
      · intro r qr er hr
        show ((s.popped c rest).reqs ++ [_])[r]? = some qr
        rw [List.getElem?_append_left (by rw [len]; exact lt_of_get er), popped_get, if_neg (fun h => hr h.2)]
        exact er
      · show ((s.popped c rest).reqs ++ [_])[c.rid]? = _
        rw [List.getElem?_append_left (by rw [len]; exact hlt), popped_get, if_pos ⟨hmore, rfl⟩, hq]
        rfl
      · intro r q' er hr
        have er : ((s.popped c rest).reqs ++ [⟨(k, (s.popped c rest).tag), .ent en, .queued⟩])[r]? = some q' := er
        rcases push_get er with ⟨er, _⟩ | ⟨h1, h2⟩
        · rw [popped_get, if_neg (fun h => hr h.2)] at er
          exact .inl er
        · rw [len] at h1
          rw [f9] at h2
          exact .inr ⟨h1, h2, h1.symm⟩
      · show s.reqs.length ≤ ((s.popped c rest).reqs ++ [_]).length
        rw [List.length_append, len]; omega
      · show ((s.popped c rest).log ++ [_]) ++ [_] = _
        rw [f4]; simp
      · intro e'
        show ((s.popped c rest).es.set en { x with rid := (s.popped c rest).reqs.length, ud := (k, (s.popped c rest).tag) })[e']? = _
        rw [f2, len, f9]
        by_cases he : e' = en
        · subst he; rw [List.getElem?_set_self (lt_of_get hx), if_pos rfl]
        · rw [List.getElem?_set_ne (fun h => he h.symm), if_neg he]
      · refine ⟨⟨(k, s.tag), .ent en, .queued⟩, ?_, rfl, rfl, by simp [hf]⟩
        show ((s.popped c rest).reqs ++ [⟨(k, (s.popped c rest).tag), .ent en, .queued⟩])[s.reqs.length]? = _
        rw [← len, f9]; simp
      · simp [hf]
      · refine .inl fun hds => .inr ⟨s.log ++ [.event en m], [], ?_, List.mem_append_left _ hds⟩
        show ((s.popped c rest).log ++ [_]) ++ [_] = _
        rw [f4]
      · intro ev hev
        rcases List.mem_cons.1 hev with h1 | h1
        · exact .inl ⟨m, h1, hW.l5 c hcm m hm⟩
        · exact .inr (.inl (List.mem_singleton.1 h1))
      · simp [RelE]
      · simp
    · have hmore : c.more = false := by
        cases hmm : c.more with
        | false => rfl
        | true =>
          obtain ⟨m, h1⟩ := hM c hcm hmm
          exact absurd h1 (hm m)
      subst e
      have len : (s.popped c rest).reqs.length = s.reqs.length := f11
      have hst : ∀ (s' : S), s' = ({ (if c.res = .cancelled then s.popped c rest else (s.popped c rest).emit (.kfail en)) with
           es := (s.popped c rest).es.set en { x with freed := true } } : S).emit (.freedE en) →
          s'.reqs = (s.popped c rest).reqs ∧ s'.cq = rest ∧ s'.retry = s.retry ∧ s'.badE = s.badE ∧
          s'.log = s.log ++ ((if c.res = .cancelled then [] else [Ev.kfail en]) ++ [.freedE en]) ∧
          s'.es = s.es.set en { x with freed := true } := by
        rintro _ rfl
        by_cases hcc : c.res = .cancelled
        · simp only [if_pos hcc, S.emit]
          exact ⟨trivial, f5, f10, f8, by rw [f4]; simp, by rw [f2]⟩
        · simp only [if_neg hcc, S.emit]
          exact ⟨trivial, f5, f10, f8, by rw [f4]; simp, by rw [f2]⟩
      obtain ⟨g1, g2, g3, g4, g5, g6⟩ := hst _ rfl
      refine h.final hR hc hmore hq hk hx hf hxr (x' := { x with freed := true })
        (evs := (if c.res = .cancelled then [] else [Ev.kfail en]) ++ [.freedE en]) ?_ ?_ ?_ ?_ g2 g3 g4 g5 ?_ rfl ?_ ?_ ?_ ?_ ?_ ?_
      · intro r qr er hr
        rw [g1, popped_get, if_neg (fun h => hr h.2)]
        exact er
      · rw [g1, popped_get, if_pos ⟨hmore, rfl⟩, hq]
        rfl
      · intro r q' er hr
        rw [g1, popped_get, if_neg (fun h => hr h.2)] at er
        exact .inl er
      · rw [g1, len]; exact Nat.le_refl _
      · intro e'
        rw [g6]
        by_cases he : e' = en
        · subst he; rw [List.getElem?_set_self (lt_of_get hx), if_pos rfl]
        · rw [List.getElem?_set_ne (fun h => he h.symm), if_neg he]
      · refine ⟨{ q with stage := .gone }, ?_, hk, ?_, by simp⟩
        · rw [g1, popped_get, hxr, if_pos ⟨hmore, rfl⟩, hq]
          rfl
        · obtain ⟨q1, hq1, _, h1, _⟩ := h.e1 en x hx
          rw [hxr, hq] at hq1; cases hq1
          exact h1
      · intro _
        by_cases hcc : c.res = .cancelled
        · obtain ⟨y, hy, hyd⟩ := h.e3 _ q en hq hk (.inr ⟨c, hcm, rfl, hcc⟩)
          rw [hx] at hy; cases hy
          exact .inl hyd
        · exact .inr (by simp [if_neg hcc])
      · refine .inr ⟨hxr, rfl, ?_⟩
        intro m hm'
        split at hm' <;> simp at hm'
      · intro ev hev
        rcases List.mem_append.1 hev with h1 | h1
        · split at h1
          · cases h1
          · exact .inr (.inr (.inl (List.mem_singleton.1 h1)))
        · exact .inr (.inr (.inr (List.mem_singleton.1 h1)))
      · split <;> simp [RelE]
      · intro _; rfl
  · rename_i w t hk
    have hp := h.popped hc hq (by rw [hk]; simp)
    simp only [Option.some.injEq] at e; subst e
    exact hp.quiet hRp rfl rfl rfl rfl rfl ⟨[_], rfl, by simp⟩
  · rename_i en t hk
    have hp := h.popped hc hq (by rw [hk]; simp)
    have h6 := h.e6 _ q en t hq hk
    split at e
    · simp only [Option.some.injEq] at e; subst e
      refine ⟨hp.e1, hp.e2, hp.e3, hp.e4, hp.e5, hp.e5', hp.e6, ?_, hp.e7, hp.e8, hp.e9, hp.e10, hp.e11, hp.e12, hp.e13⟩
      intro y hy
      rcases List.mem_append.1 hy with hy | hy
      · exact hp.e6' y hy
      · rw [List.mem_singleton] at hy; subst hy
        refine h6.later (fun x hx => ⟨x, ?_, rfl, .inl rfl⟩) (Later.popped.trans (Later.rfl' rfl)) ?_ ?_ ?_
        · rw [← f2] at hx; exact hx
        · intro ev hev; rw [← f4] at hev; exact hev
        · intro hl; rw [← f4] at hl; exact hl
        · have := lt_of_get hq
          rw [← f11] at this
          exact Nat.le_of_lt this
    · rename_i hne
      simp only [Option.some.injEq] at e; subst e
      refine hp.delEnd (by rw [f4]; exact h6.choose_spec.2.2.1) ?_
      rw [f2, f4, f5]
      rcases h.e7 [] c rest (by rw [hc]; rfl) q en t hq hk hne with h1 | ⟨x, hx, h1⟩
      · exact .inl h1
      · rcases h1 with ⟨h1, h2⟩ | ⟨a, ha, _⟩
        · refine .inr ⟨x, hx, ?_, h2⟩
          refine h1.popped hc ?_
          intro he
          obtain ⟨q1, hq1, hk1, _⟩ := h.e1 en x hx
          rw [← he, hq] at hq1; cases hq1
          rw [hk] at hk1; cases hk1
        · cases ha
  · rename_i hk
    have hp := h.popped hc hq (by rw [hk]; simp)
    simp only [Option.some.injEq] at e; subst e
    exact hp

theorem EInv.step {s s2 : S} (h : EInv s) (hR : RInv s) (hW : WInv s) (hT : TInv s) (hN : NInv s) (hM : MInv s) {a : Act}
    (e : s.step a = some s2) : EInv s2 := by
  have calls : ((∃ i k, a = .reg i k) ∨ (∃ i k, a = .cancel i k) ∨ (∃ i, a = .close i) ∨ ∃ k, a = .other k) → EInv s2 := by
    intro ha
    obtain ⟨h1, h2, h3, h4, h5, h6, h7⟩ := calls_shape hW e ha
    rcases h1 with h1 | ⟨k, kind, h1, hk1, hk2⟩
    · exact h.quiet hR h1 h2 h5 h3 h6 h7
    · obtain ⟨evs, log, calm, nds⟩ := quiet_calm h7
      refine h.push hR (u := (k, 0)) (kind := kind) (evs := evs) ?_ ?_ (by rw [h1]; simp) h5
        (fun hb => .inl (by rw [← h6]; exact hb))
        log calm (fun e he => absurd he (nds e)) ?_ (fun e x hx => .inl ⟨x, by rw [← h2]; exact hx⟩)
        (fun e he => absurd he (hk1 e)) (fun e u he => absurd he (hk2 e u)) (fun y hy => by rw [← h3]; exact hy)
      · intro r q hq
        rw [h1, List.getElem?_append_left (lt_of_get hq)]; exact hq
      · intro r q hq
        rw [h1] at hq
        rcases push_get hq with ⟨h, _⟩ | h
        · exact .inl h
        · exact .inr h
      · intro e x hx
        exact ⟨x, by rw [h2]; exact hx, rfl, rfl, rfl, id, fun h => .inl h⟩
  cases a with
  | reg sock k => exact calls (.inl ⟨_, _, rfl⟩)
  | cancel sock k => exact calls (.inr (.inl ⟨_, _, rfl⟩))
  | close sock => exact calls (.inr (.inr (.inl ⟨_, rfl⟩)))
  | other k => exact calls (.inr (.inr (.inr ⟨_, rfl⟩)))
  | add k =>
    simp only [S.step, S.add] at e
    split at e
    · simp only [Option.some.injEq] at e; subst e
      refine h.push hR (u := (k, s.tag)) (kind := .ent s.es.length) (evs := [.add s.es.length]) ?_ ?_ ?_ rfl (fun hb => .inl hb) rfl
        (by simp [Calm]) (by simp) ?_ ?_ ?_ (by simp) (fun y hy => hy)
      · intro r q hq
        show (s.reqs ++ [_])[r]? = _
        rw [List.getElem?_append_left (lt_of_get hq)]; exact hq
      · intro r q hq
        have hq : (s.reqs ++ [_])[r]? = some q := hq
        rcases push_get hq with ⟨h, _⟩ | h
        · exact .inl h
        · exact .inr h
      · show s.reqs.length ≤ (s.reqs ++ [_]).length
        simp
      · intro e x hx
        refine ⟨x, ?_, rfl, rfl, rfl, id, fun h => .inl h⟩
        show (s.es ++ [_])[e]? = _
        rw [List.getElem?_append_left (lt_of_get hx)]; exact hx
      · intro e x' hx'
        have hx' : (s.es ++ [E.mk s.reqs.length (k, s.tag) false false])[e]? = some x' := hx'
        by_cases he : e < s.es.length
        · rw [List.getElem?_append_left he] at hx'; exact .inl ⟨x', hx'⟩
        · have := lt_of_get hx'
          simp at this
          have he : e = s.es.length := by omega
          subst he
          simp at hx'
          subst hx'
          refine .inr ⟨?_, rfl, rfl, rfl, rfl⟩
          show (s.reqs ++ [_])[s.reqs.length]? = _
          simp
      · intro e he
        cases he
        refine ⟨E.mk s.reqs.length (k, s.tag) false false, ?_, rfl⟩
        show (s.es ++ [_])[s.es.length]? = _
        simp
    · cases e
  | del en k =>
    simp only [S.step, S.del] at e
    cases hx : s.es[en]? with
    | none => simp [hx] at e
    | some x =>
      simp only [hx] at e
      by_cases hd : x.del = true
      · rw [if_pos hd] at e; cases e
      rw [if_neg hd] at e
      have hset : ∀ (e : Nat) (y : E), s.es[e]? = some y → ∃ y' : E, (s.es.set en { x with del := true })[e]? = some y' ∧ y'.rid = y.rid ∧
          y'.ud = y.ud ∧ y'.freed = y.freed ∧ (y.del = true → y'.del = true) ∧ (y'.del = true → y.del = true ∨ e = en) := by
        intro e y hy
        by_cases he : e = en
        · subst he
          rw [hx] at hy; cases hy
          exact ⟨_, List.getElem?_set_self (lt_of_get hx), rfl, rfl, rfl, fun _ => rfl, fun _ => .inr rfl⟩
        · exact ⟨y, by rw [List.getElem?_set_ne (fun h => he h.symm)]; exact hy, rfl, rfl, rfl, id, fun h => .inl h⟩
      have hsetn : ∀ (e : Nat) (y : E), (s.es.set en { x with del := true })[e]? = some y → ∃ y' : E, s.es[e]? = some y' := by
        intro e y hy
        have := lt_of_get hy
        rw [List.length_set] at this
        exact ⟨_, List.getElem?_eq_getElem this⟩
      by_cases hf : x.freed = true
      · rw [if_pos hf] at e
        simp only [Option.some.injEq] at e; subst e
        refine h.push hR (u := (0, 0)) (kind := .other) (evs := []) (fun _ _ h => h) (fun _ _ h => .inl h) (Nat.le_refl _) rfl ?_
          (by simp) (by simp) (by simp) ?_ ?_ (by simp) (by simp) (fun y hy => hy)
        · intro _
          rcases h.e4 en x hx hf with h1 | h1
          · exact absurd h1 hd
          · exact .inr ⟨en, h1⟩
        · intro e y hy
          obtain ⟨y', h1, h2, h3, h4, h5, h6⟩ := hset e y hy
          refine ⟨y', h1, h2, h3, h4, h5, fun h => ?_⟩
          rcases h6 h with h7 | h7
          · exact .inl h7
          · subst h7; rw [hx] at hy; cases hy; exact .inr (.inl hf)
        · intro e y hy
          exact .inl (hsetn e y hy)
      · rw [if_neg hf] at e
        split at e
        · simp only [Option.some.injEq] at e; subst e
          have hlog : Ev.delStart en ∈ s.log ++ [Ev.delStart en] := by simp
          refine h.push hR (u := (k, 0)) (kind := .rmEnt en x.ud) (evs := [.delStart en]) ?_ ?_ ?_ rfl (fun hb => .inl hb) rfl
            (by simp [Calm]) ?_ ?_ ?_ (by simp) ?_ (fun y hy => hy)
          · intro r q hq
            show (s.reqs ++ [_])[r]? = _
            rw [List.getElem?_append_left (lt_of_get hq)]; exact hq
          · intro r q hq
            have hq : (s.reqs ++ [_])[r]? = some q := hq
            rcases push_get hq with ⟨h, _⟩ | h
            · exact .inl h
            · exact .inr h
          · show s.reqs.length ≤ (s.reqs ++ [_]).length
            simp
          · intro e he
            have := List.mem_singleton.1 he
            cases this
            exact ⟨{ x with del := true }, List.getElem?_set_self (lt_of_get hx), rfl⟩
          · intro e y hy
            obtain ⟨y', h1, h2, h3, h4, h5, h6⟩ := hset e y hy
            refine ⟨y', h1, h2, h3, h4, h5, fun h => ?_⟩
            rcases h6 h with h7 | h7
            · exact .inl h7
            · subst h7; exact .inr (.inr hlog)
          · intro e y hy
            exact .inl (hsetn e y hy)
          · intro e u he
            cases he
            obtain ⟨q, hq, hk, hu, _⟩ := h.e1 en x hx
            refine ⟨{ x with del := true }, List.getElem?_set_self (lt_of_get hx), rfl, hlog, ⟨x.rid, q, ?_, hk, hu, lt_of_get hq⟩, .inl rfl⟩
            show (s.reqs ++ [_])[x.rid]? = _
            rw [List.getElem?_append_left (lt_of_get hq)]; exact hq
        · cases e
  | retry i k =>
    simp only [S.step] at e
    split at e
    · cases e
    · rename_i en u hi
      split at e
      · simp only [Option.some.injEq] at e; subst e
        have hmem : (en, u) ∈ s.retry := List.mem_of_getElem? hi
        have h6 := h.e6' _ hmem
        refine h.push hR (u := (k, 0)) (kind := .rmEnt en u) (evs := []) ?_ ?_ ?_ rfl (fun hb => .inl hb) (by simp [S.submitReq])
          (by simp) (by simp) (fun e x hx => ⟨x, hx, rfl, rfl, rfl, id, fun h => .inl h⟩) (fun e x hx => .inl ⟨x, hx⟩) (by simp) ?_
          (fun y hy => List.mem_of_mem_eraseIdx hy)
        · intro r q hq
          show (s.reqs ++ [_])[r]? = _
          rw [List.getElem?_append_left (lt_of_get hq)]; exact hq
        · intro r q hq
          have hq : (s.reqs ++ [_])[r]? = some q := hq
          rcases push_get hq with ⟨h, _⟩ | h
          · exact .inl h
          · exact .inr h
        · show s.reqs.length ≤ (s.reqs ++ [_]).length
          simp
        · intro e u' he
          cases he
          exact h6.later (fun x hx => ⟨x, hx, rfl, .inl rfl⟩) ((Later.submitReq s k 0 (.rmEnt en u)).trans (Later.rfl' rfl))
            (fun _ h => h) id (Nat.le_refl _)
      · cases e
  | submit => exact h.kstep hR hW hT hN (kernel_shape hR e (by simp))
  | removeHit r => exact h.kstep hR hW hT hN (kernel_shape hR e (by simp))
  | removeBusy r => exact h.kstep hR hW hT hN (kernel_shape hR e (by simp))
  | removeMiss => exact h.kstep hR hW hT hN (kernel_shape hR e (by simp))
  | event r m b => exact h.kstep hR hW hT hN (kernel_shape hR e (by simp))
  | die r => exact h.kstep hR hW hT hN (kernel_shape hR e (by simp))
  | fail r => exact h.kstep hR hW hT hN (kernel_shape hR e (by simp))
  | complete k => exact h.complete hR hW hM e

structure Inv (s : S) : Prop where
  R : RInv s
  W : WInv s
  T : TInv s
  N : NInv s
  M : MInv s
  E : EInv s

theorem Inv.init : Inv S.init :=
  ⟨RInv.init, WInv.init, TInv.init, by intro r q e u h; simp [S.init] at h, by intro c hc; simp [S.init] at hc, EInv.init⟩

theorem Inv.step {s s2 : S} (h : Inv s) {a : Act} (e : s.step a = some s2) : Inv s2 :=
  ⟨h.R.step e, h.W.step h.R h.T.t0 e, h.T.step h.R h.W e, h.N.step h.R h.W e, h.M.step h.R h.W e,
    h.E.step h.R h.W h.T h.N h.M e⟩

theorem Inv.reachable {s : S} (h : Reachable Init UPoll.step s) : Inv s :=
  Reachable.invariant Inv (fun s hs => by rw [hs]; exact Inv.init) (fun _ _ _ h e => h.step e) h

end Verif.UPoll
