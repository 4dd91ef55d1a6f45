import Verif.Tls.OwnTry

/-! # What the fibers leave alone, and what they log -/
namespace Verif.Tls

/-- Log entries of the blocking calls of a fiber. -/
def Obs.isF : FId → Obs → Bool
  | .w, .call .sync _ | .w, .enc .sync _ | .w, .ret .sync _ | .w, .fail .sync _ => true
  | .r, .rcall .sync | .r, .dec .sync _ | .r, .rret .sync _ | .r, .rfail .sync _ => true
  | .h, .shutDone => true
  | _, .upFail => true
  | _, _ => false

/-- What an action of the fiber `f` leaves alone; input arrives only if `cc`. -/
structure FrameF (cc : Prop) (f : FId) (s s1 : S) : Prop where
  fib : ∀ g, g ≠ f → s1.fib g = s.fib g
  req : s1.req = s.req
  blk : s1.blocked = s.blocked
  drain : s1.drain = s.drain
  hook : s1.hook = s.hook
  mark : f ≠ .w → s1.wmark = s.wmark
  wire : s.wire <+: s1.wire
  prod : s.e.produced <+: s1.e.produced
  mle : s.wmark ≤ s.e.produced.length → s1.wmark ≤ s1.e.produced.length
  fed : ∃ bs, s1.e.fed = s.e.fed ++ bs ∧ s1.arrived = s.arrived ++ bs ∧ (bs = [] ∨ cc)
  log : ∃ l, s1.log = s.log ++ l ∧ (∀ o ∈ l, o.isF f = true) ∧
    s1.e.accepted = s.e.accepted ++ encs l ∧ s1.e.given = s.e.given ++ decs l

variable {cc : Prop}

theorem FrameF.refl (f : FId) (s : S) : FrameF cc f s s :=
  ⟨fun _ _ => rfl, rfl, rfl, rfl, rfl, fun _ => rfl, List.prefix_refl _, List.prefix_refl _, id, ⟨[], (List.append_nil _).symm, (List.append_nil _).symm, Or.inl rfl⟩,
    [], by simp, by simp, by simp [encs], by simp [decs]⟩

theorem encs_append (a b : List Obs) : encs (a ++ b) = encs a ++ encs b := by simp [encs]
theorem decs_append (a b : List Obs) : decs (a ++ b) = decs a ++ decs b := by simp [decs]

theorem FrameF.trans {f : FId} {a b c : S} (h : FrameF cc f a b) (k : FrameF cc f b c) : FrameF cc f a c := by
  obtain ⟨h1, h2, h3, h4, h5, h6, h7, h8, h8', ⟨x, hx1, hx2, hx3⟩, l, h9, h10, h11, h12⟩ := h
  obtain ⟨k1, k2, k3, k4, k5, k6, k7, k8, k8', ⟨y, ky1, ky2, ky3⟩, m, k9, k10, k11, k12⟩ := k
  refine ⟨fun g hg => (k1 g hg).trans (h1 g hg), k2.trans h2, k3.trans h3, k4.trans h4, k5.trans h5,
    fun x => (k6 x).trans (h6 x), h7.trans k7, h8.trans k8, fun x => k8' (h8' x),
    ⟨x ++ y, by simp [ky1, hx1], by simp [ky2, hx2], ?_⟩, l ++ m, by simp [k9, h9], ?_, ?_, ?_⟩
  · rcases hx3 with rfl | hx3
    · rcases ky3 with rfl | ky3
      · exact Or.inl rfl
      · exact Or.inr ky3
    · exact Or.inr hx3
  · intro o ho
    rcases List.mem_append.1 ho with ho | ho
    · exact h10 o ho
    · exact k10 o ho
  · rw [k11, h11, encs_append, List.append_assoc]
  · rw [k12, h12, decs_append, List.append_assoc]

theorem ff_setFib (f : FId) (s : S) (p : Fib) : FrameF cc f s (s.setFib f p) :=
  ⟨fun g hg => by simp [S.setFib, hg], rfl, rfl, rfl, rfl, fun _ => rfl, List.prefix_refl _, List.prefix_refl _, id, ⟨[], (List.append_nil _).symm, (List.append_nil _).symm, Or.inl rfl⟩,
    [], by simp [S.setFib], by simp, by simp [encs, S.setFib], by simp [decs, S.setFib]⟩

theorem ff_emit (f : FId) (s : S) (o : Obs) (h : o.isF f = true) (h1 : encs [o] = []) (h2 : decs [o] = []) :
    FrameF cc f s (s.emit [o]) :=
  ⟨fun _ _ => rfl, rfl, rfl, rfl, rfl, fun _ => rfl, List.prefix_refl _, List.prefix_refl _, id, ⟨[], (List.append_nil _).symm, (List.append_nil _).symm, Or.inl rfl⟩,
    [o], by simp [S.emit], by simpa using h, by simp [h1, S.emit], by simp [h2, S.emit]⟩

/-- Only flags change. -/
theorem ff_flags (f : FId) (s : S) (w r : Option Holder) (sh : Shut) (n : Bool) :
    FrameF cc f s { s with wown := w, rown := r, shut := sh, nextShut := n } :=
  ⟨fun _ _ => rfl, rfl, rfl, rfl, rfl, fun _ => rfl, List.prefix_refl _, List.prefix_refl _, id, ⟨[], (List.append_nil _).symm, (List.append_nil _).symm, Or.inl rfl⟩,
    [], by simp, by simp, by simp [encs], by simp [decs]⟩

theorem ff_netW (f : FId) (s : S) (k : K) (t : Bool) : FrameF cc f s (s.netW f k t) := by
  have := (ff_flags (cc := cc) f s (some (.fib f)) s.rown s.shut s.nextShut).trans
    (ff_setFib f { s with wown := some (.fib f) } (.netW s.e.out k t))
  exact this

theorem ff_netR (f : FId) (s : S) (k : K) : FrameF cc f s (s.netR f k) := by
  unfold S.netR
  split
  · exact ff_setFib _ _ _
  · have := (ff_flags (cc := cc) f s s.wown (some (.fib f)) s.shut s.nextShut).trans
      (ff_setFib f { s with rown := some (.fib f) } (.netR s.e.fed.length k))
    exact this

theorem ff_upRead (f : FId) (s : S) (k : K) : FrameF cc f s (s.upRead f k) := by
  unfold S.upRead
  split
  · exact ff_netW _ _ _ _
  · exact ff_netR _ _ _

theorem ff_upWrite (f : FId) (s : S) (k : K) : FrameF cc f s (s.upWrite f k) := by
  unfold S.upWrite
  split
  · exact ff_setFib _ _ _
  · exact ff_netW _ _ _ _

theorem ff_wRet (s : S) (n : Nat) : FrameF cc .w s (s.wRet n) :=
  (ff_setFib .w s .idle).trans (ff_emit _ _ _ rfl rfl rfl)

theorem ff_wFail (s : S) (x : Err) : FrameF cc .w s (s.wFail x) :=
  (ff_setFib .w s .idle).trans (ff_emit _ _ _ rfl rfl rfl)

theorem ff_wFinish (s : S) (n : Nat) : FrameF cc .w s (s.wFinish n) := by
  unfold S.wFinish
  split
  · exact ff_wRet _ _
  · exact ff_upWrite _ _ _

theorem Ext.prod {e e1 : Eng} (h : Ext e e1) : e.produced <+: e1.produced := by
  obtain ⟨⟨x, _, h2⟩, _⟩ := h
  rw [h2]; exact List.prefix_append _ _

theorem ff_wLoop {s s1 : S} {iov : List (List Nat)} (e : s.wLoop iov = some s1) : FrameF cc .w s s1 := by
  unfold S.wLoop at e
  split at e
  · simp at e
  · rename_i p hp
    have hp := push_spec hp
    have h2 : FrameF cc .w s ({ s with e := p.eng, wmark := p.eng.produced.length }.emit
        [.enc .sync (iov.flatten.take p.written)]) := by
      refine ⟨fun _ _ => rfl, rfl, rfl, rfl, rfl, fun x => absurd rfl x, List.prefix_refl _, hp.ext.prod, fun _ => Nat.le_refl _, ⟨[], by simpa [S.emit] using hp.ext.fed, by simp [S.emit], Or.inl rfl⟩,
        [.enc .sync (iov.flatten.take p.written)], rfl, by simp [Obs.isF], ?_, ?_⟩
      · simpa [encs, S.emit] using hp.acc
      · simpa [decs, S.emit] using hp.given
    simp only at e
    split at e
    · split at e
      · simp at e
      · simp only [Option.some.injEq] at e; subst e; exact h2.trans (ff_wFinish _ _)
    · simp only [Option.some.injEq] at e; subst e; exact h2.trans (ff_wFail _ _)
    · simp only [Option.some.injEq] at e; subst e; exact h2.trans (ff_wFail _ _)
    · simp only [Option.some.injEq] at e; subst e; exact h2.trans (ff_upRead _ _ _)
    · simp only [Option.some.injEq] at e; subst e; exact h2.trans (ff_upWrite _ _ _)

theorem ff_rRet (s : S) (n : Nat) : FrameF cc .r s (s.rRet n) :=
  (ff_setFib .r s .idle).trans (ff_emit _ _ _ rfl rfl rfl)

theorem ff_rFail (s : S) (n : Nat) (x : Err) : FrameF cc .r s (s.rFail n x) := by
  unfold S.rFail
  split
  · exact ff_rRet _ _
  · exact (ff_setFib .r s .idle).trans (ff_emit _ _ _ rfl rfl rfl)

theorem ff_rLoop (s : S) (caps : List Nat) (n : Nat) (hc : 0 ∉ caps) : FrameF cc .r s (s.rLoop caps n) := by
  unfold S.rLoop
  cases hr : readLoop (s.e.script.length + 1) s.e caps [] with
  | mk stop x =>
    obtain ⟨caps1, bs, e1⟩ := x
    have hs := readLoop_spec _ _ _ _ _ _ _ _ hc hr
    have h2 : FrameF cc .r s ({ s with e := e1 }.emit [.dec .sync bs]) := by
      refine ⟨fun _ _ => rfl, rfl, rfl, rfl, rfl, fun _ => rfl, List.prefix_refl _, hs.1.prod, fun x => Nat.le_trans x hs.1.prod.length_le, ⟨[], by simpa [S.emit] using hs.1.fed, by simp [S.emit], Or.inl rfl⟩,
        [.dec .sync bs], rfl, by simp [Obs.isF], ?_, ?_⟩
      · simpa [encs, S.emit] using hs.2.1
      · obtain ⟨_, _, _, ⟨x, x1, x2⟩, _⟩ := hs
        simp only [List.nil_append] at x1; subst x1
        simpa [decs, S.emit] using x2
    simp only
    split
    · exact h2.trans (ff_rRet _ _)
    · exact h2.trans (ff_rRet _ _)
    · exact h2.trans (ff_rFail _ _ _)
    · split
      · exact h2.trans (ff_rRet _ _)
      · exact h2.trans (ff_upRead _ _ _)
    · exact h2.trans (ff_upWrite _ _ _)

theorem ff_hNext (s : S) : FrameF cc .h s s.hNext := by
  have := (ff_flags (cc := cc) .h s s.wown s.rown s.shut true).trans (ff_setFib .h { s with nextShut := true } .waitIo)
  exact this

theorem ff_cont {s s1 : S} {k : K} (hk : k.caps) (e : s.cont k = some s1) : FrameF cc k.fid s s1 := by
  cases k with
  | wOp iov n =>
    simp only [S.cont] at e
    split at e
    · simp only [Option.some.injEq] at e; subst e; exact ff_wFinish _ _
    · exact ff_wLoop e
  | wFin n => simp only [S.cont, Option.some.injEq] at e; subst e; exact ff_wRet _ _
  | rOp caps n => simp only [S.cont, Option.some.injEq] at e; subst e; exact ff_rLoop _ _ _ hk.2
  | hSend => simp only [S.cont, Option.some.injEq] at e; subst e; exact ff_hNext _

theorem ff_contFail (s : S) (k : K) (x : Err) : FrameF cc k.fid s (s.contFail k x) := by
  cases k with
  | wOp iov n => exact ff_wFail _ _
  | wFin n => exact ff_wFail _ _
  | rOp caps n => exact ff_rFail _ _ _
  | hSend => exact ff_hNext _

theorem ff_wire (f : FId) (s : S) (x : List Nat) (m : Nat) :
    FrameF cc f s { s with wire := s.wire ++ x, e := s.e.consume m } :=
  ⟨fun _ _ => rfl, rfl, rfl, rfl, rfl, fun _ => rfl, List.prefix_append _ _, List.prefix_refl _, id, ⟨[], (List.append_nil _).symm, (List.append_nil _).symm, Or.inl rfl⟩,
    [], by simp, by simp, by simp [encs, Eng.consume], by simp [decs, Eng.consume]⟩

theorem ff_netWDone {s s1 : S} {f : FId} {k : Option Nat} (h : Own s) (e : s.netWDone f k = some s1) :
    FrameF cc f s s1 := by
  unfold S.netWDone at e
  split at e
  · rename_i buf c t hf
    have hk : c.ok f := by have := h.kf f; rw [hf] at this; exact this
    split at e
    · simp only [Option.some.injEq] at e; subst e
      have a := ff_flags (cc := cc) f s none s.rown s.shut s.nextShut
      have b := a.trans (ff_emit f _ .upFail (by cases f <;> rfl) rfl rfl)
      have c1 := b.trans (ff_setFib f _ .idle)
      have d := ff_contFail (cc := cc) (({ s with wown := none }.emit [.upFail]).setFib f .idle) c .net
      rw [hk.1] at d
      exact c1.trans d
    · rename_i k
      have a := ff_wire (cc := cc) f s (buf.take (k + 1)) (min (k + 1) buf.length)
      simp only at e
      split at e
      · simp only [Option.some.injEq] at e; subst e
        exact a.trans (ff_setFib _ _ _)
      · have b := (a.trans (ff_flags f _ none s.rown s.shut s.nextShut)).trans (ff_setFib f _ .idle)
        split at e
        · simp only [Option.some.injEq] at e; subst e
          exact b.trans (ff_netR _ _ _)
        · have d := ff_cont (cc := cc) hk.2 e
          rw [hk.1] at d
          exact b.trans d
  · simp only [Option.some.injEq] at e; subst e; exact FrameF.refl _ _

theorem ff_commit (f : FId) (s : S) (bs : List Nat) (hc : cc) :
    FrameF cc f s { s with e := s.e.commit bs, arrived := s.arrived ++ bs } :=
  ⟨fun _ _ => rfl, rfl, rfl, rfl, rfl, fun _ => rfl, List.prefix_refl _, List.prefix_refl _, id, ⟨bs, rfl, rfl, Or.inr hc⟩,
    [], by simp, by simp, by simp [encs, Eng.commit], by simp [decs, Eng.commit]⟩

theorem ff_netRDone {s s1 : S} {f : FId} {r : Rd} (h : Own s)
    (hcc : (∃ pos k, s.fib f = .netR pos k ∧ pos = s.e.fed.length) → cc) (e : s.netRDone f r = some s1) :
    FrameF cc f s s1 := by
  unfold S.netRDone at e
  split at e
  · rename_i pos c hf
    have hk : c.ok f := by have := h.kf f; rw [hf] at this; exact this
    have a := (ff_flags (cc := cc) f s s.wown none s.shut s.nextShut).trans (ff_setFib f _ .idle)
    have fail : ∀ x, FrameF cc f s (({ s with rown := none }.setFib f .idle).contFail c x) := by
      intro x
      have d := ff_contFail (cc := cc) ({ s with rown := none }.setFib f .idle) c x
      rw [hk.1] at d
      exact a.trans d
    split at e
    · simp only [Option.some.injEq] at e; subst e; exact fail _
    · simp only [Option.some.injEq] at e; subst e; exact fail _
    · rename_i bs
      split at e
      · simp only [Option.some.injEq] at e; subst e; exact fail _
      · split at e
        · simp at e
        · rename_i hp
          have d := ff_cont (cc := cc) hk.2 e
          rw [hk.1] at d
          have b := ((ff_flags (cc := cc) f s s.wown none s.shut s.nextShut).trans (ff_commit f _ bs (hcc ⟨pos, c, hf, Classical.byContradiction hp⟩))).trans
            (ff_setFib f _ .idle)
          exact b.trans d
  · simp only [Option.some.injEq] at e; subst e; exact FrameF.refl _ _

theorem ff_resume {s s1 : S} {f : FId} (h : Own s) (e : s.resume f = some s1) : FrameF cc f s s1 := by
  unfold S.resume at e
  split at e
  · rename_i k hf
    have hk : k.ok f := by have := h.kf f; rw [hf] at this; exact this
    split at e
    · have d := ff_cont (cc := cc) hk.2 e
      rw [hk.1] at d
      exact (ff_setFib _ _ _).trans d
    · simp only [Option.some.injEq] at e; subst e; exact FrameF.refl _ _
  · rename_i k hf
    have hk : k.ok f := by have := h.kf f; rw [hf] at this; exact this
    split at e
    · have d := ff_cont (cc := cc) hk.2 e
      rw [hk.1] at d
      exact (ff_setFib _ _ _).trans d
    · simp only [Option.some.injEq] at e; subst e; exact FrameF.refl _ _
  · rename_i hf
    have hk : f = .h := by have := h.kf f; rw [hf] at this; exact this
    subst hk
    split at e
    · simp only [Option.some.injEq] at e; subst e
      exact ((ff_flags .h s s.wown s.rown .done s.nextShut).trans (ff_setFib .h _ .idle)).trans
        (ff_emit _ _ _ rfl rfl rfl)
    · simp only [Option.some.injEq] at e; subst e; exact FrameF.refl _ _
  · simp only [Option.some.injEq] at e; subst e; exact FrameF.refl _ _

theorem ff_write {s s1 : S} {iov : List (List Nat)} (e : s.step (.write iov) = some s1) : FrameF cc .w s s1 := by
  simp only [S.step] at e
  split at e
  · exact (ff_emit _ _ _ rfl rfl rfl).trans (ff_wLoop e)
  · simp only [Option.some.injEq] at e; subst e; exact FrameF.refl _ _

theorem ff_recv {s s1 : S} {caps : List Nat} (e : s.step (.recv caps) = some s1) : FrameF cc .r s s1 := by
  simp only [S.step] at e
  split at e
  · split at e
    · simp at e
    · rename_i hc
      simp only [Option.some.injEq] at e; subst e
      exact (ff_emit _ _ _ rfl rfl rfl).trans (ff_rLoop _ _ _ (fun x => hc (Or.inr x)))
  · simp only [Option.some.injEq] at e; subst e; exact FrameF.refl _ _

theorem ff_shutdown {s s1 : S} (e : s.step .shutdown = some s1) : FrameF cc .h s s1 := by
  simp only [S.step] at e
  split at e
  · cases hs : s.e.shutdown with
    | mk b e1 =>
      rw [hs] at e
      obtain ⟨x1, x2, x3⟩ := shutdown_spec hs
      have a : FrameF cc .h s { s with e := e1, shut := .inProgress } :=
        ⟨fun _ _ => rfl, rfl, rfl, rfl, rfl, fun _ => rfl, List.prefix_refl _, x1.prod, fun x => Nat.le_trans x x1.prod.length_le, ⟨[], by simpa using x1.fed, by simp, Or.inl rfl⟩,
          [], by simp, by simp, by simp [encs, x2], by simp [decs, x3]⟩
      simp only at e
      split at e
      · simp only [Option.some.injEq] at e; subst e; exact a.trans (ff_netW _ _ _ _)
      · simp only [Option.some.injEq] at e; subst e; exact a.trans (ff_hNext _)
  · simp only [Option.some.injEq] at e; subst e; exact FrameF.refl _ _

end Verif.Tls
