import Verif.Tls.Data

/-! # The log follows the rules -/
namespace Verif.Tls

/-! ### What the asynchronous steps leave alone -/

/-- Log entries of asynchronous steps. -/
def Obs.isQ (o : Obs) : Bool := o.isA .reader || o.isA .writer || decide (o = .upFail)

/-- What an asynchronous step leaves alone. -/
structure FrameQ (s s1 : S) : Prop where
  fib : s1.fib = s.fib
  hook : s1.hook = s.hook
  mark : s1.wmark = s.wmark
  wire : s.wire <+: s1.wire
  prod : s.e.produced <+: s1.e.produced
  log : ∃ l, s1.log = s.log ++ l ∧ ∀ o ∈ l, o.isQ = true
  fed : ∃ bs, s1.e.fed = s.e.fed ++ bs ∧ s1.arrived = s.arrived ++ bs

theorem FrameQ.refl (s : S) : FrameQ s s :=
  ⟨rfl, rfl, rfl, List.prefix_refl _, List.prefix_refl _, ⟨[], by simp⟩, [], by simp⟩

theorem FrameQ.trans {a b c : S} (h : FrameQ a b) (k : FrameQ b c) : FrameQ a c := by
  obtain ⟨h1, h2, h3, h4, h5, ⟨l, h6, h7⟩, x, h8, h9⟩ := h
  obtain ⟨k1, k2, k3, k4, k5, ⟨m, k6, k7⟩, y, k8, k9⟩ := k
  refine ⟨k1.trans h1, k2.trans h2, k3.trans h3, h4.trans k4, h5.trans k5, ⟨l ++ m, by simp [k6, h6], ?_⟩,
    x ++ y, by simp [k8, h8], by simp [k9, h9]⟩
  intro o ho
  rcases List.mem_append.1 ho with ho | ho
  · exact h7 o ho
  · exact k7 o ho

theorem FrameA.q {ρ : Role} {s s1 : S} (h : FrameA ρ s s1) : FrameQ s s1 := by
  obtain ⟨l, l1, l2⟩ := h.log
  refine ⟨h.fib, h.hook, h.mark, by rw [h.wire]; exact List.prefix_refl _, h.ext.prod, ⟨l, l1, fun o ho => ?_⟩, [],
    by simp [h.ext.fed], by simp [h.arr]⟩
  have := l2 o ho
  cases ρ <;> simp [Obs.isQ, this]

/-- Only flags and requests change. -/
theorem fq_flags (s : S) (w r : Option Holder) (q : Role → Option Req) (b : Option Role) :
    FrameQ s { s with wown := w, rown := r, req := q, blocked := b } :=
  ⟨rfl, rfl, rfl, List.prefix_refl _, List.prefix_refl _, ⟨[], by simp⟩, [], by simp⟩

theorem fq_emit (s : S) (o : Obs) (h : o.isQ = true) : FrameQ s (s.emit [o]) :=
  ⟨rfl, rfl, rfl, List.prefix_refl _, List.prefix_refl _, ⟨[o], rfl, by simpa using h⟩, [], by simp [S.emit]⟩

theorem fq_wire (s : S) (x : List Nat) (m : Nat) :
    FrameQ s { s with wire := s.wire ++ x, e := s.e.consume m } :=
  ⟨rfl, rfl, rfl, List.prefix_append _ _, List.prefix_refl _, ⟨[], by simp⟩, [], by simp [Eng.consume]⟩

theorem fq_commit (s : S) (bs : List Nat) :
    FrameQ s { s with e := s.e.commit bs, arrived := s.arrived ++ bs } :=
  ⟨rfl, rfl, rfl, List.prefix_refl _, List.prefix_refl _, ⟨[], by simp⟩, bs, rfl, rfl⟩

theorem fq_runPending {s s1 : S} {ρ : Role} (h : Own s) (hb : s.blocked ≠ some ρ) (e : s.runPending = some s1) :
    FrameQ s s1 := by
  obtain ⟨_, _, _, h4⟩ := own_runPending h hb e
  rcases h4 with rfl | ⟨ρ', _, _, f⟩
  · exact FrameQ.refl _
  · exact (fq_flags s s.wown s.rown s.req none).trans f.q

theorem fq_aWDone {s s1 : S} {ρ : Role} {k : Option Nat} (h : Own s) (e : s.aWDone ρ k = some s1) : FrameQ s s1 := by
  unfold S.aWDone at e
  split at e
  · simp only [Option.some.injEq] at e; subst e; exact FrameQ.refl _
  rename_i q hq
  split at e
  · rename_i buf hu
    obtain ⟨hrel, hr, hb⟩ := own_releaseQW h hq hu
    have hup : s.up ρ = .wr buf := by simp [S.up, hq, upOf, hu]
    obtain ⟨hb1, hb2⟩ := h.bq ρ (by rw [hup]; rfl)
    rw [hup] at hb1 hb2
    simp only [Up.buf] at hb1 hb2
    have f0 : FrameQ s { s.setReq ρ (some { q with up := .none }) with wown := none } := fq_flags s _ _ _ _
    simp only at e
    split at e
    · split at e
      · simp at e
      · rename_i s2 he
        simp only [Option.some.injEq] at e; subst e
        have o1 := own_emit hrel [.upFail]
        obtain ⟨o2, q2, b2, _⟩ := own_runPending (ρ := ρ) o1 hb he
        exact ((f0.trans (fq_emit _ .upFail rfl)).trans (fq_runPending o1 hb he)).trans
          (frame_complete _ _ _ (o2.kq ρ)).q
    · rename_i k
      have htake : buf.take (k + 1) = s.e.out.take (min (k + 1) buf.length) := by
        obtain ⟨t, ht⟩ := hb2
        rw [← ht, List.take_append, show min (k + 1) buf.length - buf.length = 0 from by omega]
        simp
      have hs := own_sent hrel htake rfl
      have f1 := f0.trans (fq_wire _ (buf.take (k + 1)) (min (k + 1) buf.length))
      split at e
      · simp only [Option.some.injEq] at e; subst e
        exact (fq_wire s (buf.take (k + 1)) (min (k + 1) buf.length)).trans (fq_flags _ _ _ _ _)
      · split at e
        · simp at e
        · rename_i s2 he
          have o1 := own_congr hs rfl rfl rfl rfl rfl rfl rfl
          obtain ⟨o2, q2, b2, _⟩ := own_runPending (ρ := ρ) o1 hb he
          have f2 := f1.trans (fq_runPending o1 hb he)
          split at e
          · exact f2.trans (frame_startUpR e).q
          · exact f2.trans (frame_roleAction (o2.kq ρ) e).q
  · simp only [Option.some.injEq] at e; subst e; exact FrameQ.refl _

theorem fq_aRDone {s s1 : S} {ρ : Role} {r : Rd} (h : Own s) (e : s.aRDone ρ r = some s1) : FrameQ s s1 := by
  unfold S.aRDone at e
  split at e
  · simp only [Option.some.injEq] at e; subst e; exact FrameQ.refl _
  rename_i q hq
  split at e
  · rename_i pos hu
    obtain ⟨hrel, hw, hb⟩ := own_releaseQR h hq hu
    have f0 : FrameQ s { s.setReq ρ (some { q with up := .none }) with rown := none } := fq_flags s _ _ _ _
    simp only at e
    split at e
    · simp at e
    · rename_i s2 he
      obtain ⟨o2, q2, b2, _⟩ := own_runPending (ρ := ρ) hrel hb he
      have f2 := f0.trans (fq_runPending hrel hb he)
      split at e
      · simp only [Option.some.injEq] at e; subst e; exact f2.trans (frame_complete _ _ _ (o2.kq ρ)).q
      · simp only [Option.some.injEq] at e; subst e; exact f2.trans (frame_complete _ _ _ (o2.kq ρ)).q
      · rename_i bs
        split at e
        · simp only [Option.some.injEq] at e; subst e; exact f2.trans (frame_complete _ _ _ (o2.kq ρ)).q
        · split at e
          · simp at e
          · exact (f2.trans (fq_commit s2 bs)).trans (frame_roleAction (by exact o2.kq ρ) e).q
  · simp only [Option.some.injEq] at e; subst e; exact FrameQ.refl _

theorem fq_asyncRead {s s1 : S} {n : Nat} (e : s.step (.asyncRead n) = some s1) : FrameQ s s1 :=
  (fq_emit s _ rfl).trans (frame_asyncRead e).q

theorem fq_asyncWrite {s s1 : S} {iov : List (List Nat)} (e : s.step (.asyncWrite iov) = some s1) : FrameQ s s1 :=
  (fq_emit s _ rfl).trans (frame_asyncWrite e).q

/-! ### Which machine sees which entry -/

def Obs.wsrc : Obs → Option Src
  | .call s _ | .enc s _ | .ret s _ | .fail s _ => some s
  | _ => none

def Obs.rsrc : Obs → Option Src
  | .rcall s | .dec s _ | .rret s _ | .rfail s _ => some s
  | _ => none

theorem wnext_quiet (src : Src) (st : WSt) (o : Obs) (h : o.wsrc ≠ some src) : wnext src st o = st := by
  cases o <;> simp [Obs.wsrc] at h <;> cases st <;> simp [wnext, h]

theorem wnext0_quiet (src : Src) (st : WSt) (o : Obs) (h : o.wsrc ≠ some src) : wnext0 src st o = st := by
  unfold wnext0
  split
  · simp [Obs.wsrc] at h; rw [if_neg h]
  · exact wnext_quiet _ _ _ h

theorem rnext_quiet (src : Src) (st : RSt) (o : Obs) (h : o.rsrc ≠ some src) : rnext src st o = st := by
  cases o <;> simp [Obs.rsrc] at h <;> cases st <;> simp [rnext, h]

theorem wst_append (src : Src) (a b : List Obs) : wst src (a ++ b) = b.foldl (wnext src) (wst src a) := by
  simp [wst]

theorem wst0_append (src : Src) (a b : List Obs) : wst0 src (a ++ b) = b.foldl (wnext0 src) (wst0 src a) := by
  simp [wst0]

theorem rst_append (src : Src) (a b : List Obs) : rst src (a ++ b) = b.foldl (rnext src) (rst src a) := by
  simp [rst]

theorem wst_quiet (src : Src) (a b : List Obs) (h : ∀ o ∈ b, o.wsrc ≠ some src) : wst src (a ++ b) = wst src a := by
  rw [wst_append]
  induction b generalizing a with
  | nil => rfl
  | cons o b ih =>
    rw [List.foldl_cons, wnext_quiet _ _ _ (h o (by simp))]
    exact ih a (fun x hx => h x (by simp [hx]))

theorem wst0_quiet (src : Src) (a b : List Obs) (h : ∀ o ∈ b, o.wsrc ≠ some src) : wst0 src (a ++ b) = wst0 src a := by
  rw [wst0_append]
  induction b generalizing a with
  | nil => rfl
  | cons o b ih =>
    rw [List.foldl_cons, wnext0_quiet _ _ _ (h o (by simp))]
    exact ih a (fun x hx => h x (by simp [hx]))

theorem rst_quiet (src : Src) (a b : List Obs) (h : ∀ o ∈ b, o.rsrc ≠ some src) : rst src (a ++ b) = rst src a := by
  rw [rst_append]
  induction b generalizing a with
  | nil => rfl
  | cons o b ih =>
    rw [List.foldl_cons, rnext_quiet _ _ _ (h o (by simp))]
    exact ih a (fun x hx => h x (by simp [hx]))

theorem isF_wsrc {f : FId} {o : Obs} (h : o.isF f = true) : o.wsrc = none ∨ f = .w ∧ o.wsrc = some .sync := by
  unfold Obs.isF at h; split at h <;> simp_all [Obs.wsrc]

theorem isF_rsrc {f : FId} {o : Obs} (h : o.isF f = true) : o.rsrc = none ∨ f = .r ∧ o.rsrc = some .sync := by
  unfold Obs.isF at h; split at h <;> simp_all [Obs.rsrc]

theorem isA_wsrc {ρ : Role} {o : Obs} (h : o.isA ρ = true) : o.wsrc = none ∨ ρ = .writer ∧ o.wsrc = some .async := by
  unfold Obs.isA at h; split at h <;> simp_all [Obs.wsrc]

theorem isA_rsrc {ρ : Role} {o : Obs} (h : o.isA ρ = true) : o.rsrc = none ∨ ρ = .reader ∧ o.rsrc = some .async := by
  unfold Obs.isA at h; split at h <;> simp_all [Obs.rsrc]

theorem isQ_wsrc {o : Obs} (h : o.isQ = true) : o.wsrc = none ∨ o.wsrc = some .async := by
  simp only [Obs.isQ, Bool.or_eq_true, decide_eq_true_eq] at h
  rcases h with (h | h) | rfl
  · rcases isA_wsrc h with x | x
    · exact Or.inl x
    · exact Or.inr x.2
  · rcases isA_wsrc h with x | x
    · exact Or.inl x
    · exact Or.inr x.2
  · exact Or.inl rfl

theorem isQ_rsrc {o : Obs} (h : o.isQ = true) : o.rsrc = none ∨ o.rsrc = some .async := by
  simp only [Obs.isQ, Bool.or_eq_true, decide_eq_true_eq] at h
  rcases h with (h | h) | rfl
  · rcases isA_rsrc h with x | x
    · exact Or.inl x
    · exact Or.inr x.2
  · rcases isA_rsrc h with x | x
    · exact Or.inl x
    · exact Or.inr x.2
  · exact Or.inl rfl

end Verif.Tls
