import Verif.Tls.Inv

/-! # What is on the wire when a blocking write returns -/
namespace Verif.Tls

/-- A step does not release the write flag, unless a write failed or all that was produced is on the wire. -/
def Rel (s s1 : S) : Prop :=
  s1.wown = none → .upFail ∉ s1.log → s.wown = none ∨ s.e.produced.length ≤ s1.wire.length

/-- A step does not release the write flag. -/
abbrev NR (s s1 : S) : Prop := s1.wown = none → s.wown = none

theorem NR.rel {s s1 : S} (h : NR s s1) : Rel s s1 := fun x _ => Or.inl (h x)

theorem nr_netW (s : S) (f : FId) (k : K) (t : Bool) : NR s (s.netW f k t) := by
  intro h; simp [S.netW, S.setFib] at h

theorem nr_netR (s : S) (f : FId) (k : K) : NR s (s.netR f k) := by
  unfold S.netR; split <;> exact id

theorem nr_upRead (s : S) (f : FId) (k : K) : NR s (s.upRead f k) := by
  unfold S.upRead; split
  · exact nr_netW _ _ _ _
  · exact nr_netR _ _ _

theorem nr_upWrite (s : S) (f : FId) (k : K) : NR s (s.upWrite f k) := by
  unfold S.upWrite; split
  · exact id
  · exact nr_netW _ _ _ _

theorem nr_wFinish (s : S) (n : Nat) : NR s (s.wFinish n) := by
  unfold S.wFinish; split
  · exact id
  · exact nr_upWrite _ _ _

theorem nr_wLoop {s s1 : S} {iov : List (List Nat)} (e : s.wLoop iov = some s1) : NR s s1 := by
  unfold S.wLoop at e
  split at e
  · simp at e
  · simp only at e
    split at e
    · split at e
      · simp at e
      · simp only [Option.some.injEq] at e; subst e; exact nr_wFinish _ _
    · simp only [Option.some.injEq] at e; subst e; exact id
    · simp only [Option.some.injEq] at e; subst e; exact id
    · simp only [Option.some.injEq] at e; subst e; exact nr_upRead _ _ _
    · simp only [Option.some.injEq] at e; subst e; exact nr_upWrite _ _ _

theorem nr_rFail (s : S) (n : Nat) (x : Err) : NR s (s.rFail n x) := by
  unfold S.rFail; split <;> exact id

theorem nr_rLoop (s : S) (caps : List Nat) (n : Nat) : NR s (s.rLoop caps n) := by
  unfold S.rLoop
  simp only
  split
  · exact id
  · exact id
  · exact nr_rFail _ _ _
  · split
    · exact id
    · exact nr_upRead _ _ _
  · exact nr_upWrite _ _ _

theorem nr_cont {s s1 : S} {k : K} (e : s.cont k = some s1) : NR s s1 := by
  unfold S.cont at e
  split at e
  · split at e
    · simp only [Option.some.injEq] at e; subst e; exact nr_wFinish _ _
    · exact nr_wLoop e
  · simp only [Option.some.injEq] at e; subst e; exact id
  · simp only [Option.some.injEq] at e; subst e; exact nr_rLoop _ _ _
  · simp only [Option.some.injEq] at e; subst e; exact id

theorem nr_contFail (s : S) (k : K) (x : Err) : NR s (s.contFail k x) := by
  unfold S.contFail
  split
  · exact id
  · exact id
  · exact nr_rFail _ _ _
  · exact id

theorem out_nil {s : S} (p : s.wire ++ s.e.out = s.e.produced) (h : s.e.out = []) :
    s.wire.length = s.e.produced.length := by rw [← p, h]; simp

theorem rel_netWDone {s s1 : S} {f : FId} {k : Option Nat} (o : Own s) (e : s.netWDone f k = some s1) : Rel s s1 := by
  unfold S.netWDone at e
  split at e
  · rename_i buf c t hf
    have hk : c.ok f := by have := o.kf f; rw [hf] at this; exact this
    obtain ⟨hb1, hb2⟩ := o.bf f (by rw [hf]; rfl)
    rw [hf] at hb1 hb2
    simp only [Fib.buf] at hb1 hb2
    split at e
    · simp only [Option.some.injEq] at e; subst e
      intro _ h2
      exfalso
      refine h2 ?_
      obtain ⟨l, l1, _⟩ := (ff_contFail (cc := False) (({ s with wown := none }.emit [.upFail]).setFib f .idle) c .net).log
      rw [l1]
      simp [S.setFib, S.emit]
    · rename_i k
      have htake : buf.take (k + 1) = s.e.out.take (min (k + 1) buf.length) := by
        obtain ⟨t, ht⟩ := hb2
        rw [← ht, List.take_append, show min (k + 1) buf.length - buf.length = 0 from by omega]
        simp
      have hp : (s.wire ++ buf.take (k + 1)) ++ (s.e.consume (min (k + 1) buf.length)).out = s.e.produced := by
        rw [htake, ← o.pipe]; simp [Eng.consume]
      simp only at e
      split at e
      · simp only [Option.some.injEq] at e; subst e
        exact NR.rel id
      · rename_i hout
        have hout : (s.e.consume (min (k + 1) buf.length)).out = [] := Classical.byContradiction hout
        rw [hout, List.append_nil] at hp
        intro _ _
        right
        rw [← hp]
        split at e
        · simp only [Option.some.injEq] at e; subst e
          have a := (ff_netR (cc := False) f ({ s with
            wire := s.wire ++ buf.take (k + 1)
            e := s.e.consume (min (k + 1) buf.length)
            wown := none }.setFib f .idle) c).wire
          exact a.length_le
        · have a := (ff_cont (cc := False) hk.2 e).wire
          exact a.length_le
  · simp only [Option.some.injEq] at e; subst e; exact NR.rel id

theorem rel_netRDone {s s1 : S} {f : FId} {r : Rd} (e : s.netRDone f r = some s1) : Rel s s1 := by
  refine NR.rel ?_
  unfold S.netRDone at e
  split at e
  · split at e
    · simp only [Option.some.injEq] at e; subst e; exact nr_contFail _ _ _
    · simp only [Option.some.injEq] at e; subst e; exact nr_contFail _ _ _
    · split at e
      · simp only [Option.some.injEq] at e; subst e; exact nr_contFail _ _ _
      · split at e
        · simp at e
        · have := nr_cont e; exact this
  · simp only [Option.some.injEq] at e; subst e; exact id

theorem rel_resume {s s1 : S} {f : FId} (e : s.resume f = some s1) : Rel s s1 := by
  refine NR.rel ?_
  unfold S.resume at e
  split at e
  · split at e
    · have := nr_cont e; exact this
    · simp only [Option.some.injEq] at e; subst e; exact id
  · split at e
    · have := nr_cont e; exact this
    · simp only [Option.some.injEq] at e; subst e; exact id
  · split at e
    · simp only [Option.some.injEq] at e; subst e; exact id
    · simp only [Option.some.injEq] at e; subst e; exact id
  · simp only [Option.some.injEq] at e; subst e; exact id

theorem nr_runPending {s s1 : S} {ρ : Role} (h : Own s) (hb : s.blocked ≠ some ρ) (e : s.runPending = some s1) :
    NR s s1 := by
  obtain ⟨_, _, _, rfl | ⟨ρ', _, _, f⟩⟩ := own_runPending h hb e
  · exact id
  · exact f.own

theorem rel_aWDone {s s1 : S} {ρ : Role} {k : Option Nat} (h : Own s) (e : s.aWDone ρ k = some s1) : Rel s s1 := by
  unfold S.aWDone at e
  split at e
  · simp only [Option.some.injEq] at e; subst e; exact NR.rel id
  rename_i q hq
  split at e
  · rename_i buf hu
    obtain ⟨hrel, hr, hb⟩ := own_releaseQW h hq hu
    have hup : s.up ρ = .wr buf := by simp [S.up, hq, upOf, hu]
    obtain ⟨hb1, hb2⟩ := h.bq ρ (by rw [hup]; rfl)
    rw [hup] at hb1 hb2
    simp only [Up.buf] at hb1 hb2
    simp only at e
    split at e
    · split at e
      · simp at e
      · rename_i s2 he
        simp only [Option.some.injEq] at e; subst e
        have o1 := own_emit hrel [.upFail]
        obtain ⟨o2, q2, b2, _⟩ := own_runPending (ρ := ρ) o1 hb he
        intro _ x
        exfalso
        refine x ?_
        obtain ⟨l, l1, _⟩ := ((fq_runPending o1 hb he).trans (frame_complete ρ s2 (.error .net) (o2.kq ρ)).q).log
        rw [l1]
        simp [S.emit, S.setReq]
    · rename_i k
      have htake : buf.take (k + 1) = s.e.out.take (min (k + 1) buf.length) := by
        obtain ⟨t, ht⟩ := hb2
        rw [← ht, List.take_append, show min (k + 1) buf.length - buf.length = 0 from by omega]
        simp
      have hs := own_sent hrel htake rfl
      have hp : (s.wire ++ buf.take (k + 1)) ++ (s.e.consume (min (k + 1) buf.length)).out = s.e.produced := by
        rw [htake, ← h.pipe]; simp [Eng.consume]
      split at e
      · simp only [Option.some.injEq] at e; subst e
        exact NR.rel id
      · rename_i hout
        have hout : (s.e.consume (min (k + 1) buf.length)).out = [] := Classical.byContradiction hout
        rw [hout, List.append_nil] at hp
        intro _ _
        right
        rw [← hp]
        split at e
        · simp at e
        · rename_i s2 he
          have o1 := own_congr hs rfl rfl rfl rfl rfl rfl rfl
          obtain ⟨o2, q2, b2, _⟩ := own_runPending (ρ := ρ) o1 hb he
          have f2 := fq_runPending o1 hb he
          split at e
          · exact (f2.trans (frame_startUpR e).q).wire.length_le
          · exact (f2.trans (frame_roleAction (o2.kq ρ) e).q).wire.length_le
  · simp only [Option.some.injEq] at e; subst e; exact NR.rel id

theorem rel_aRDone {s s1 : S} {ρ : Role} {r : Rd} (h : Own s) (e : s.aRDone ρ r = some s1) : Rel s s1 := by
  refine NR.rel ?_
  unfold S.aRDone at e
  split at e
  · simp only [Option.some.injEq] at e; subst e; exact id
  rename_i q hq
  split at e
  · rename_i pos hu
    obtain ⟨hrel, hw, hb⟩ := own_releaseQR h hq hu
    simp only at e
    split at e
    · simp at e
    · rename_i s2 he
      obtain ⟨o2, q2, b2, _⟩ := own_runPending (ρ := ρ) hrel hb he
      have f2 : NR s s2 := by have := nr_runPending hrel hb he; exact this
      split at e
      · simp only [Option.some.injEq] at e; subst e; exact fun x => f2 ((frame_complete ρ s2 _ (o2.kq ρ)).own x)
      · simp only [Option.some.injEq] at e; subst e; exact fun x => f2 ((frame_complete ρ s2 _ (o2.kq ρ)).own x)
      · rename_i bs
        split at e
        · simp only [Option.some.injEq] at e; subst e; exact fun x => f2 ((frame_complete ρ s2 _ (o2.kq ρ)).own x)
        · split at e
          · simp at e
          · exact fun x => f2 ((frame_roleAction (by exact o2.kq ρ) e).own x)
  · simp only [Option.some.injEq] at e; subst e; exact id

/-! ### The writing fiber -/

def K.isFin : K → Bool | .wFin _ => true | _ => false

/-- Waits that are not those of a write that flushes. -/
def Fib.noFin : Fib → Prop
  | .netR _ k | .waitR k | .netW _ k true => k.isFin = false
  | _ => True

/-- What a blocking write has put on the wire. -/
structure Fl (s : S) : Prop where
  mle : s.wmark ≤ s.e.produced.length
  fin : ∀ n, s.fib .w = .waitW (.wFin n) → s.wown = none → .upFail ∉ s.log → s.wmark ≤ s.wire.length
  kw : (s.fib .w).noFin
  ret : ∀ n, s.log.getLast? = some (.ret .sync n) → .upFail ∉ s.log → s.wmark ≤ s.wire.length

theorem Fl.init (script ups hook) : Fl (S.init script ups hook) :=
  ⟨by simp [S.init], by simp [S.init], trivial, by simp [S.init]⟩

theorem last_not {l m : List Obs} {o : Obs} (hm : o ∉ m) (h : (l ++ m).getLast? = some o) : m = [] ∧ l.getLast? = some o := by
  cases m with
  | nil => exact ⟨rfl, by simpa using h⟩
  | cons a m =>
    exfalso
    rw [List.getLast?_append] at h
    have : ((a :: m).getLast?).isSome := by simp
    cases hx : (a :: m).getLast? with
    | none => simp at hx
    | some y =>
      rw [hx] at h
      simp only [Option.some_or, Option.some.injEq] at h
      subst h
      exact hm (List.mem_of_getLast? hx)

/-- Steps that are not the writing fiber's. -/
theorem Fl.other {s s1 : S} (h : Fl s) (fib : s1.fib .w = s.fib .w) (mark : s1.wmark = s.wmark)
    (wire : s.wire <+: s1.wire) (prod : s.e.produced <+: s1.e.produced) (rel : Rel s s1)
    (log : ∃ l, s1.log = s.log ++ l ∧ ∀ n, .ret .sync n ∉ l) : Fl s1 := by
  obtain ⟨l, l1, l2⟩ := log
  have hl : .upFail ∉ s1.log → .upFail ∉ s.log := by rw [l1]; simp only [List.mem_append, not_or]; exact And.left
  refine ⟨?_, ?_, by rw [fib]; exact h.kw, ?_⟩
  · rw [mark]; exact Nat.le_trans h.mle prod.length_le
  · intro n hf hw hu
    rw [mark]
    rcases rel hw hu with x | x
    · exact Nat.le_trans (h.fin n (by rw [← fib]; exact hf) x (hl hu)) wire.length_le
    · exact Nat.le_trans h.mle x
  · intro n hg hu
    rw [l1] at hg
    rw [mark]
    exact Nat.le_trans (h.ret n (last_not (l2 n) hg).2 (hl hu)) wire.length_le

theorem Fl.ff {s s1 : S} {f : FId} {cc : Prop} (h : Fl s) (k : FrameF cc f s s1) (hf : f ≠ .w) (rel : Rel s s1) : Fl s1 := by
  obtain ⟨l, l1, l2, _⟩ := k.log
  refine h.other (k.fib .w (fun x => hf x.symm)) (k.mark hf) k.wire k.prod rel ⟨l, l1, fun n hn => ?_⟩
  have := l2 _ hn
  cases f <;> simp_all [Obs.isF]

theorem Fl.fq {s s1 : S} (h : Fl s) (k : FrameQ s s1) (rel : Rel s s1) : Fl s1 := by
  obtain ⟨l, l1, l2⟩ := k.log
  refine h.other (by rw [k.fib]) k.mark k.wire k.prod rel ⟨l, l1, fun n hn => ?_⟩
  have := l2 _ hn
  simp [Obs.isQ, Obs.isA] at this

/-- The writing fiber after its part of a step. -/
structure FW (s : S) : Prop where
  fin : ∀ n, s.fib .w = .waitW (.wFin n) → s.wown ≠ none
  kw : (s.fib .w).noFin
  ret : ∀ n, s.log.getLast? = some (.ret .sync n) → .upFail ∉ s.log → s.wmark ≤ s.wire.length

/-- What is known of a returned write. -/
abbrev Last (s : S) : Prop := ∀ n, s.log.getLast? = some (.ret .sync n) → .upFail ∉ s.log → s.wmark ≤ s.wire.length

theorem fw_netW (s : S) (k : K) (t : Bool) (h : Last s) (hk : t = true → k.isFin = false) : FW (s.netW .w k t) := by
  refine ⟨by simp [S.netW, S.setFib], ?_, h⟩
  simp only [S.netW, S.setFib, if_true]
  cases t
  · trivial
  · exact hk rfl

theorem fw_netR (s : S) (k : K) (h : Last s) (hk : k.isFin = false) : FW (s.netR .w k) := by
  unfold S.netR
  split
  · exact ⟨by simp [S.setFib], by simpa [S.setFib, Fib.noFin] using hk, h⟩
  · exact ⟨by simp [S.setFib], by simpa [S.setFib, Fib.noFin] using hk, h⟩

theorem fw_upRead (s : S) (k : K) (h : Last s) (hk : k.isFin = false) : FW (s.upRead .w k) := by
  unfold S.upRead
  split
  · exact fw_netW _ _ _ h (fun _ => hk)
  · exact fw_netR _ _ h hk

theorem fw_upWrite (s : S) (k : K) (h : Last s) : FW (s.upWrite .w k) := by
  unfold S.upWrite
  split
  · rename_i x hx
    exact ⟨by intro n _; show s.wown ≠ none; simp [hx], by simp [S.setFib, Fib.noFin], h⟩
  · exact fw_netW _ _ _ h (by simp)

theorem fw_wRet (s : S) (n : Nat) (h : .upFail ∉ s.log → s.wmark ≤ s.wire.length) : FW (s.wRet n) := by
  refine ⟨by simp [S.wRet, S.setFib, S.emit], by simp [S.wRet, S.setFib, S.emit, Fib.noFin], ?_⟩
  intro m _ hu
  exact h (fun x => hu (List.mem_append_left _ x))

theorem fw_wFail (s : S) (x : Err) : FW (s.wFail x) := by
  refine ⟨by simp [S.wFail, S.setFib, S.emit], by simp [S.wFail, S.setFib, S.emit, Fib.noFin], ?_⟩
  intro m hm
  simp [S.wFail, S.setFib, S.emit] at hm

theorem fw_wFinish (s : S) (n : Nat) (p : s.wire ++ s.e.out = s.e.produced) (m : s.wmark ≤ s.e.produced.length)
    (h : Last s) : FW (s.wFinish n) := by
  unfold S.wFinish
  split
  · rename_i ho; exact fw_wRet _ _ (fun _ => by rw [out_nil p ho]; exact m)
  · exact fw_upWrite _ _ h

theorem fw_wLoop {s s1 : S} {iov : List (List Nat)} (p : s.wire ++ s.e.out = s.e.produced)
    (e : s.wLoop iov = some s1) : FW s1 := by
  unfold S.wLoop at e
  split at e
  · simp at e
  · rename_i q hq
    obtain ⟨x, x1, x2⟩ := (push_spec hq).ext.q
    have l : Last ({ s with e := q.eng, wmark := q.eng.produced.length }.emit [.enc .sync (iov.flatten.take q.written)]) := by
      intro n hn; simp [S.emit] at hn
    have p' : s.wire ++ q.eng.out = q.eng.produced := by rw [x1, x2, ← p]; simp
    simp only at e
    split at e
    · split at e
      · simp at e
      · simp only [Option.some.injEq] at e; subst e
        exact fw_wFinish _ _ p' (Nat.le_refl _) l
    · simp only [Option.some.injEq] at e; subst e; exact fw_wFail _ _
    · simp only [Option.some.injEq] at e; subst e; exact fw_wFail _ _
    · simp only [Option.some.injEq] at e; subst e; exact fw_upRead _ _ l rfl
    · simp only [Option.some.injEq] at e; subst e; exact fw_upWrite _ _ l

theorem fw_cont {s s1 : S} {k : K} (p : s.wire ++ s.e.out = s.e.produced) (m : s.wmark ≤ s.e.produced.length)
    (h : Last s) (hk : k.fid = .w) (hf : k.isFin = true → .upFail ∉ s.log → s.wmark ≤ s.wire.length)
    (e : s.cont k = some s1) : FW s1 := by
  unfold S.cont at e
  split at e
  · split at e
    · simp only [Option.some.injEq] at e; subst e; exact fw_wFinish _ _ p m h
    · exact fw_wLoop p e
  · simp only [Option.some.injEq] at e; subst e; exact fw_wRet _ _ (hf rfl)
  · simp [K.fid] at hk
  · simp [K.fid] at hk

theorem fw_contFail {s : S} {k : K} {x : Err} (hk : k.fid = .w) : FW (s.contFail k x) := by
  unfold S.contFail
  split
  · exact fw_wFail _ _
  · exact fw_wFail _ _
  · simp [K.fid] at hk
  · simp [K.fid] at hk

theorem FW.fl {s s1 : S} {cc : Prop} (h : Fl s) (k : FrameF cc .w s s1) (w : FW s1) : Fl s1 :=
  ⟨k.mle h.mle, fun n x y => absurd y (w.fin n x), w.kw, w.ret⟩

theorem fl_netWDone {s s1 : S} {f : FId} {k : Option Nat} (o : Own s) (h : Fl s) (e : s.netWDone f k = some s1) : Fl s1 := by
  have fr : FrameF False f s s1 := ff_netWDone o e
  by_cases hw : f = .w
  · subst hw
    have e0 := e
    unfold S.netWDone at e
    split at e
    · rename_i buf c t hf
      have hk : c.ok .w := by have := o.kf .w; rw [hf] at this; exact this
      have hn := h.kw
      rw [hf] at hn
      obtain ⟨hb1, hb2⟩ := o.bf .w (by rw [hf]; rfl)
      rw [hf] at hb1 hb2
      simp only [Fib.buf] at hb1 hb2
      split at e
      · simp only [Option.some.injEq] at e; subst e
        exact FW.fl h fr (fw_contFail hk.1)
      · rename_i k
        have htake : buf.take (k + 1) = s.e.out.take (min (k + 1) buf.length) := by
          obtain ⟨t, ht⟩ := hb2
          rw [← ht, List.take_append, show min (k + 1) buf.length - buf.length = 0 from by omega]
          simp
        have hp : (s.wire ++ buf.take (k + 1)) ++ (s.e.consume (min (k + 1) buf.length)).out = s.e.produced := by
          rw [htake, ← o.pipe]; simp [Eng.consume]
        have l : ∀ n, s.log.getLast? = some (.ret .sync n) → .upFail ∉ s.log →
            s.wmark ≤ (s.wire ++ buf.take (k + 1)).length := by
          intro n h1 h2
          have := h.ret n h1 h2
          rw [List.length_append]; omega
        simp only at e
        split at e
        · simp only [Option.some.injEq] at e; subst e
          refine FW.fl h fr ⟨by simp [S.setFib], ?_, l⟩
          simp only [S.setFib, if_true]
          cases t
          · trivial
          · exact hn
        · rename_i hout
          have hout : (s.e.consume (min (k + 1) buf.length)).out = [] := Classical.byContradiction hout
          have hp2 := hp
          rw [hout, List.append_nil] at hp2
          split at e
          · rename_i ht
            simp only [Option.some.injEq] at e; subst e
            refine FW.fl h fr (fw_netR _ _ l ?_)
            rw [ht] at hn; exact hn
          · refine FW.fl h fr (fw_cont (by exact hp) (by exact h.mle) (by exact l) hk.1 ?_ e)
            intro _ _
            show s.wmark ≤ (s.wire ++ buf.take (k + 1)).length
            rw [hp2]; exact h.mle
    · simp only [Option.some.injEq] at e; subst e; exact h
  · exact h.ff fr hw (rel_netWDone o e)

theorem fl_netRDone {s s1 : S} {f : FId} {r : Rd} (o : Own s) (h : Fl s) (e : s.netRDone f r = some s1) : Fl s1 := by
  have fr : FrameF True f s s1 := ff_netRDone o (fun _ => trivial) e
  by_cases hw : f = .w
  · subst hw
    have e0 := e
    unfold S.netRDone at e
    split at e
    · rename_i pos c hf
      have hk : c.ok .w := by have := o.kf .w; rw [hf] at this; exact this
      have hn := h.kw
      rw [hf] at hn
      have hn : c.isFin = false := hn
      split at e
      · simp only [Option.some.injEq] at e; subst e; exact FW.fl h fr (fw_contFail hk.1)
      · simp only [Option.some.injEq] at e; subst e; exact FW.fl h fr (fw_contFail hk.1)
      · split at e
        · simp only [Option.some.injEq] at e; subst e; exact FW.fl h fr (fw_contFail hk.1)
        · split at e
          · simp at e
          · exact FW.fl h fr (fw_cont (by exact o.pipe) (by exact h.mle) (by exact h.ret) hk.1 (by simp [hn]) e)
    · simp only [Option.some.injEq] at e; subst e; exact h
  · exact h.ff fr hw (rel_netRDone e)

theorem fl_resume {s s1 : S} {f : FId} (o : Own s) (h : Fl s) (e : s.resume f = some s1) : Fl s1 := by
  have fr : FrameF False f s s1 := ff_resume o e
  by_cases hw : f = .w
  · subst hw
    have e0 := e
    unfold S.resume at e
    split at e
    · rename_i k hf
      have hk : k.ok .w := by have := o.kf .w; rw [hf] at this; exact this
      split at e
      · rename_i hn
        refine FW.fl h fr (fw_cont (by exact o.pipe) (by exact h.mle) (by exact h.ret) hk.1 ?_ e)
        intro hx hu
        cases k with
        | wFin n => exact h.fin n hf hn hu
        | _ => simp [K.isFin] at hx
      · simp only [Option.some.injEq] at e; subst e; exact h
    · rename_i k hf
      have hk : k.ok .w := by have := o.kf .w; rw [hf] at this; exact this
      have hn := h.kw
      rw [hf] at hn
      have hn : k.isFin = false := hn
      split at e
      · exact FW.fl h fr (fw_cont (by exact o.pipe) (by exact h.mle) (by exact h.ret) hk.1 (by simp [hn]) e)
      · simp only [Option.some.injEq] at e; subst e; exact h
    · rename_i hf
      have := o.kf .w
      rw [hf] at this
      simp [Fib.kOk] at this
    · simp only [Option.some.injEq] at e; subst e; exact h
  · exact h.ff fr hw (rel_resume e)

theorem fl_step {s s1 : S} {a : Act} (o : Own s) (h : Fl s) (e : s.step a = some s1) : Fl s1 := by
  cases a with
  | write iov =>
    have fr : FrameF False .w s s1 := ff_write e
    simp only [S.step] at e
    split at e
    · exact FW.fl h fr (fw_wLoop (by exact o.pipe) e)
    · simp only [Option.some.injEq] at e; subst e; exact h
  | recv caps =>
    refine h.ff (cc := False) (ff_recv e) (by simp) (NR.rel ?_)
    simp only [S.step] at e
    split at e
    · split at e
      · simp at e
      · simp only [Option.some.injEq] at e; subst e; exact nr_rLoop _ _ _
    · simp only [Option.some.injEq] at e; subst e; exact id
  | shutdown =>
    refine h.ff (cc := False) (ff_shutdown e) (by simp) (NR.rel ?_)
    simp only [S.step] at e
    split at e
    · split at e
      · simp only [Option.some.injEq] at e; subst e; exact nr_netW _ _ _ _
      · simp only [Option.some.injEq] at e; subst e; exact id
    · simp only [Option.some.injEq] at e; subst e; exact id
  | trySend iov =>
    have t := trySend_spec o e
    obtain ⟨l, n, x, d1, d2, d3, d4, d5, d6⟩ := t.dat
    refine h.other (by rw [t.fib]) t.mark t.wir t.pro (NR.rel ?_) ⟨_, d1, ?_⟩
    · rcases t.bg with ⟨b, _⟩ | ⟨b, _⟩
      · rw [NR, b]; exact id
      · exact fun _ => b
    · intro m hm
      simp only [List.mem_append, List.mem_singleton, List.mem_map] at hm
      rcases hm with (hm | ⟨_, _, hm⟩) | hm
      · simp at hm
      · simp at hm
      · rcases d5 with rfl | ⟨_, _, rfl⟩ <;> simp at hm
  | tryRecv n =>
    have t := tryRecv_spec o e
    obtain ⟨l, l2, x, d1, d2, d3, d4, _⟩ := t.dat
    refine h.other (by rw [t.fib]) t.mark t.wir t.pro (NR.rel ?_) ⟨_, d1, ?_⟩
    · rcases t.bg with ⟨b, _⟩ | ⟨b, _⟩
      · rw [NR, b]; exact id
      · exact fun _ => b
    · intro m hm
      simp only [List.mem_append, List.mem_singleton, List.mem_map] at hm
      rcases hm with ((hm | ⟨_, _, hm⟩) | hm) | hm
      · simp at hm
      · simp at hm
      · rcases d3 with rfl | rfl <;> simp at hm
      · rcases d4 with rfl | ⟨_, _, rfl⟩ <;> simp at hm
  | asyncRead n =>
    refine h.fq (fq_asyncRead e) (NR.rel ?_)
    simp only [S.step] at e
    exact (frame_asyncRead e).own
  | asyncWrite iov =>
    refine h.fq (fq_asyncWrite e) (NR.rel ?_)
    simp only [S.step] at e
    exact (frame_asyncWrite e).own
  | setHook on => simp only [S.step, Option.some.injEq] at e; subst e; exact ⟨h.mle, h.fin, h.kw, h.ret⟩
  | netW f k => exact fl_netWDone o h e
  | netR f r => exact fl_netRDone o h e
  | resume f => exact fl_resume o h e
  | aW ρ k => exact h.fq (fq_aWDone o e) (rel_aWDone o e)
  | aR ρ r => exact h.fq (fq_aRDone o e) (rel_aRDone o e)

end Verif.Tls
