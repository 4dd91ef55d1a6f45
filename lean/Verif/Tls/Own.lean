import Verif.Tls.EngLemmas

/-! # Who uses the socket below: an invariant of every history -/
namespace Verif.Tls

def Fib.isW : Fib → Bool | .netW .. => true | _ => false
def Fib.isR : Fib → Bool | .netR .. => true | _ => false
def Fib.buf : Fib → List Nat | .netW b _ _ => b | _ => []
def Up.isW : Up → Bool | .wr _ => true | _ => false
def Up.isR : Up → Bool | .rd _ => true | _ => false
def Up.buf : Up → List Nat | .wr b => b | _ => []

def upOf : Option Req → Up | some q => q.up | none => .none
def S.up (s : S) (ρ : Role) : Up := upOf (s.req ρ)

def K.fid : K → FId | .wOp .. | .wFin .. => .w | .rOp .. => .r | .hSend => .h

def K.caps : K → Prop
  | .rOp caps _ => caps ≠ [] ∧ 0 ∉ caps
  | _ => True

def K.ok (f : FId) (k : K) : Prop := k.fid = f ∧ k.caps

def Fib.kOk (f : FId) : Fib → Prop
  | .idle => True
  | .netW _ k _ | .netR _ k | .waitW k | .waitR k => k.ok f
  | .waitIo => f = .h

def Kind.ok : Role → Kind → Prop
  | .reader, .read _ | .writer, .user _ | .writer, .flush _ => True
  | _, _ => False

/-- The flags say who has an operation in flight; what is being written is the front of the output. -/
structure Own (s : S) : Prop where
  pipe : s.wire ++ s.e.out = s.e.produced
  wf : ∀ f, (s.fib f).isW = true ↔ s.wown = some (.fib f)
  wq : ∀ ρ, (s.up ρ).isW = true ↔ s.wown = some (.req ρ)
  bf : ∀ f, (s.fib f).isW = true → (s.fib f).buf ≠ [] ∧ (s.fib f).buf <+: s.e.out
  bq : ∀ ρ, (s.up ρ).isW = true → (s.up ρ).buf ≠ [] ∧ (s.up ρ).buf <+: s.e.out
  rf : ∀ f, (s.fib f).isR = true ↔ s.rown = some (.fib f)
  rq : ∀ ρ, (s.up ρ).isR = true ↔ s.rown = some (.req ρ)
  kf : ∀ f, (s.fib f).kOk f
  kq : ∀ ρ q, s.req ρ = some q → q.kind.ok ρ
  bl : ∀ ρ, s.blocked = some ρ → s.up ρ = .none ∧ s.req ρ ≠ none

theorem own_init (script ups hook) : Own (S.init script ups hook) :=
  ⟨rfl, by simp [S.init, Fib.isW], by simp [S.init, S.up, upOf, Up.isW], by simp [S.init, Fib.isW],
   by simp [S.init, S.up, upOf, Up.isW], by simp [S.init, Fib.isR], by simp [S.init, S.up, upOf, Up.isR],
   by simp [S.init, Fib.kOk], by simp [S.init], by simp [S.init]⟩

theorem own_congr {s t : S} (h : Own s) (e : t.e = s.e) (w : t.wown = s.wown) (r : t.rown = s.rown)
    (f : t.fib = s.fib) (q : t.req = s.req) (x : t.wire = s.wire) (b : t.blocked = s.blocked) :
    Own t := by
  have hu : t.up = s.up := by funext ρ; simp [S.up, q]
  obtain ⟨h1, h2, h3, h4, h5, h6, h7, h8, h9, h10⟩ := h
  exact ⟨by rw [x, e]; exact h1, by rw [f, w]; exact h2, by rw [hu, w]; exact h3, by rw [f, e]; exact h4,
    by rw [hu, e]; exact h5, by rw [f, r]; exact h6, by rw [hu, r]; exact h7, by rw [f]; exact h8,
    by rw [q]; exact h9, by rw [b, hu, q]; exact h10⟩

theorem own_emit {s : S} (h : Own s) (l : List Obs) : Own (s.emit l) := own_congr h rfl rfl rfl rfl rfl rfl rfl

theorem own_ext {s : S} {e1 : Eng} (h : Own s) (x : Ext s.e e1) : Own { s with e := e1 } := by
  obtain ⟨h1, h2, h3, h4, h5, h6, h7, h8, h9, h10⟩ := h
  obtain ⟨⟨y, y1, y2⟩, _⟩ := x
  refine ⟨?_, h2, h3, ?_, ?_, h6, h7, h8, h9, h10⟩
  · show s.wire ++ e1.out = e1.produced
    rw [y1, y2, ← List.append_assoc, h1]
  · intro f hf
    refine ⟨(h4 f hf).1, (h4 f hf).2.trans ?_⟩
    show s.e.out <+: e1.out
    rw [y1]; exact List.prefix_append _ _
  · intro f hf
    refine ⟨(h5 f hf).1, (h5 f hf).2.trans ?_⟩
    show s.e.out <+: e1.out
    rw [y1]; exact List.prefix_append _ _

/-- Input does not matter. -/
theorem own_commit {s : S} {bs a : List Nat} (h : Own s) : Own { s with e := s.e.commit bs, arrived := a } := by
  obtain ⟨h1, h2, h3, h4, h5, h6, h7, h8, h9, h10⟩ := h
  exact ⟨h1, h2, h3, h4, h5, h6, h7, h8, h9, h10⟩

/-- A fiber that has nothing in flight goes to a place where it has nothing in flight. -/
theorem own_setFib {s : S} {f : FId} {p : Fib} (h : Own s) (hw : s.wown ≠ some (.fib f))
    (hr : s.rown ≠ some (.fib f)) (p1 : p.isW = false) (p2 : p.isR = false) (p3 : p.kOk f) :
    Own (s.setFib f p) := by
  obtain ⟨h1, h2, h3, h4, h5, h6, h7, h8, h9, h10⟩ := h
  refine ⟨h1, ?_, h3, ?_, h5, ?_, h7, ?_, h9, h10⟩ <;> intro g <;> have h2 := h2 g <;> have h4 := h4 g <;>
    have h6 := h6 g <;> have h8 := h8 g <;> by_cases hg : g = f <;> simp only [S.setFib, hg, if_true, if_false] <;>
    grind

/-- A fiber that runs starts a write. -/
theorem own_netW {s : S} {f : FId} {k : K} {t : Bool} (h : Own s) (hw : s.wown = none)
    (hr : s.rown ≠ some (.fib f)) (ho : s.e.out ≠ []) (hk : k.ok f) : Own (s.netW f k t) := by
  obtain ⟨h1, h2, h3, h4, h5, h6, h7, h8, h9, h10⟩ := h
  refine ⟨h1, ?_, ?_, ?_, ?_, ?_, h7, ?_, h9, h10⟩
  · intro g; have := h2 g
    by_cases hg : g = f
    · subst hg; simp [S.netW, S.setFib, Fib.isW]
    · have hg' : ¬ f = g := fun e => hg e.symm
      simp only [S.netW, S.setFib, hg, if_false]
      rw [this]; simp [hw, hg']
  · intro ρ; have := h3 ρ
    simp only [S.netW, S.setFib]
    show (s.up ρ).isW = true ↔ _
    rw [this]; simp [hw]
  · intro g; have := h4 g
    by_cases hg : g = f
    · subst hg; intro _; simp [S.netW, S.setFib, Fib.buf, ho]
    · simpa only [S.netW, S.setFib, hg, if_false] using this
  · intro ρ hρ; exact h5 ρ hρ
  · intro g; have := h6 g
    by_cases hg : g = f
    · subst hg; simp only [S.netW, S.setFib, if_true, Fib.isR]; simp [hr]
    · simpa only [S.netW, S.setFib, hg, if_false] using this
  · intro g; have := h8 g
    by_cases hg : g = f
    · subst hg; simpa only [S.netW, S.setFib, if_true, Fib.kOk] using hk
    · simpa only [S.netW, S.setFib, hg, if_false] using this

theorem own_netR {s : S} {f : FId} {k : K} (h : Own s) (hw : s.wown ≠ some (.fib f))
    (hr : s.rown ≠ some (.fib f)) (hk : k.ok f) : Own (s.netR f k) := by
  unfold S.netR
  cases hc : s.rown with
  | some x => exact own_setFib h hw (by rw [hc] at hr; rwa [hc]) rfl rfl hk
  | none =>
    obtain ⟨h1, h2, h3, h4, h5, h6, h7, h8, h9, h10⟩ := h
    refine ⟨h1, ?_, h3, ?_, h5, ?_, ?_, ?_, h9, h10⟩
    · intro g; have := h2 g
      by_cases hg : g = f
      · subst hg; simp only [S.setFib, if_true, Fib.isW]; simp [hw]
      · simpa only [S.setFib, hg, if_false] using this
    · intro g; have := h4 g
      by_cases hg : g = f
      · subst hg; intro e; simp [S.setFib, Fib.isW] at e
      · simpa only [S.setFib, hg, if_false] using this
    · intro g; have := h6 g
      by_cases hg : g = f
      · subst hg; simp [S.setFib, Fib.isR]
      · have hg' : ¬ f = g := fun e => hg e.symm
        simp only [S.setFib, hg, if_false]
        rw [this]; simp [hc, hg']
    · intro ρ; have := h7 ρ
      simp only [S.setFib]
      show (s.up ρ).isR = true ↔ _
      rw [this]; simp [hc]
    · intro g; have := h8 g
      by_cases hg : g = f
      · subst hg; simpa only [S.setFib, if_true, Fib.kOk] using hk
      · simpa only [S.setFib, hg, if_false] using this

/-- Nothing in flight for a fiber. -/
def Free (s : S) (f : FId) : Prop := s.wown ≠ some (.fib f) ∧ s.rown ≠ some (.fib f)

theorem own_upRead {s : S} {f : FId} {k : K} (h : Own s) (hf : Free s f) (hk : k.ok f) :
    Own (s.upRead f k) := by
  unfold S.upRead
  split
  · rename_i hc; exact own_netW h hc.2 hf.2 hc.1 hk
  · exact own_netR h hf.1 hf.2 hk

theorem own_upWrite {s : S} {f : FId} {k : K} (h : Own s) (hf : Free s f) (hk : k.ok f) (ho : s.e.out ≠ []) :
    Own (s.upWrite f k) := by
  unfold S.upWrite
  cases hc : s.wown with
  | some x => exact own_setFib h hf.1 hf.2 rfl rfl hk
  | none => exact own_netW h hc hf.2 ho hk

theorem kOk_idle (f : FId) : Fib.kOk f .idle := trivial

theorem own_idle {s : S} {f : FId} (h : Own s) (hf : Free s f) (l : List Obs) :
    Own ((s.setFib f .idle).emit l) := own_emit (own_setFib h hf.1 hf.2 rfl rfl (kOk_idle f)) l

theorem own_wFinish {s : S} {n : Nat} (h : Own s) (hf : Free s .w) : Own (s.wFinish n) := by
  unfold S.wFinish
  split
  · exact own_idle h hf _
  · rename_i ho; exact own_upWrite h hf ⟨rfl, trivial⟩ ho

theorem own_wLoop {s s1 : S} {iov : List (List Nat)} (h : Own s) (hf : Free s .w) (e : s.wLoop iov = some s1) :
    Own s1 := by
  unfold S.wLoop at e
  split at e
  · simp at e
  · rename_i p hp
    have hp := push_spec hp
    have h2 : Own ({ s with e := p.eng, wmark := p.eng.produced.length }.emit
        [.enc .sync (iov.flatten.take p.written)]) := own_congr (own_ext h hp.ext) rfl rfl rfl rfl rfl rfl rfl
    have hf2 : Free ({ s with e := p.eng, wmark := p.eng.produced.length }.emit
        [.enc .sync (iov.flatten.take p.written)]) .w := hf
    simp only at e
    split at e
    · split at e
      · simp at e
      · simp only [Option.some.injEq] at e; subst e; exact own_wFinish h2 hf2
    · simp only [Option.some.injEq] at e; subst e; exact own_idle h2 hf2 _
    · simp only [Option.some.injEq] at e; subst e; exact own_idle h2 hf2 _
    · simp only [Option.some.injEq] at e; subst e; exact own_upRead h2 hf2 ⟨rfl, trivial⟩
    · rename_i ho
      simp only [Option.some.injEq] at e; subst e; exact own_upWrite h2 hf2 ⟨rfl, trivial⟩ (hp.nw ho)

theorem own_rFail {s : S} {n : Nat} {x : Err} (h : Own s) (hf : Free s .r) : Own (s.rFail n x) := by
  unfold S.rFail
  split
  · exact own_idle h hf _
  · exact own_idle h hf _

theorem own_rLoop {s : S} {caps : List Nat} {n : Nat} (h : Own s) (hf : Free s .r) (hc : 0 ∉ caps) :
    Own (s.rLoop caps n) := by
  unfold S.rLoop
  cases hr : readLoop (s.e.script.length + 1) s.e caps [] with
  | mk stop x =>
    obtain ⟨caps1, bs, e1⟩ := x
    obtain ⟨k1, k2, k3, k4, k5, k6⟩ := readLoop_spec _ _ _ _ _ _ _ _ hc hr
    have h2 := own_emit (own_ext h k1) [.dec .sync bs]
    have hf2 : Free ({ s with e := e1 }.emit [.dec .sync bs]) .r := hf
    simp only
    split
    · exact own_idle h2 hf2 _
    · exact own_idle h2 hf2 _
    · exact own_rFail h2 hf2
    · split
      · exact own_idle h2 hf2 _
      · exact own_upRead h2 hf2 ⟨rfl, k6 _ rfl, k3⟩
    · exact own_upWrite h2 hf2 ⟨rfl, k6 _ rfl, k3⟩ (k5 rfl)

theorem own_hNext {s : S} (h : Own s) (hf : Free s .h) : Own s.hNext :=
  own_setFib (own_congr h rfl rfl rfl rfl rfl rfl rfl : Own { s with nextShut := true }) hf.1 hf.2 rfl rfl rfl

theorem own_cont {s s1 : S} {k : K} (h : Own s) (hf : Free s k.fid) (hk : k.caps)
    (e : s.cont k = some s1) : Own s1 := by
  cases k with
  | wOp iov n =>
    simp only [S.cont] at e
    split at e
    · simp only [Option.some.injEq] at e; subst e; exact own_wFinish h hf
    · exact own_wLoop h hf e
  | wFin n => simp only [S.cont, Option.some.injEq] at e; subst e; exact own_idle h hf _
  | rOp caps n => simp only [S.cont, Option.some.injEq] at e; subst e; exact own_rLoop h hf hk.2
  | hSend => simp only [S.cont, Option.some.injEq] at e; subst e; exact own_hNext h hf

theorem own_contFail {s : S} {k : K} {x : Err} (h : Own s) (hf : Free s k.fid) : Own (s.contFail k x) := by
  cases k with
  | wOp iov n => exact own_idle h hf _
  | wFin n => exact own_idle h hf _
  | rOp caps n => exact own_rFail h hf
  | hSend => exact own_hNext h hf

theorem Own.free_of_idle {s : S} {f : FId} (h : Own s) (hi : (s.fib f).isW = false) (hr : (s.fib f).isR = false) :
    Free s f := by
  constructor
  · intro e; have := (h.wf f).2 e; simp [hi] at this
  · intro e; have := (h.rf f).2 e; simp [hr] at this

/-- A fiber's write is over. -/
theorem own_releaseW {s : S} {f : FId} {buf : List Nat} {k : K} {t : Bool} (h : Own s)
    (hf : s.fib f = .netW buf k t) : Own ({ s with wown := none }.setFib f .idle) := by
  have hw := (h.wf f).1 (by rw [hf]; rfl)
  have hr : s.rown ≠ some (.fib f) := fun e => by have := (h.rf f).2 e; simp [hf, Fib.isR] at this
  obtain ⟨h1, h2, h3, h4, h5, h6, h7, h8, h9, h10⟩ := h
  refine ⟨h1, ?_, ?_, ?_, h5, ?_, h7, ?_, h9, h10⟩
  · intro g; have := h2 g
    by_cases hg : g = f
    · subst hg; simp [S.setFib, Fib.isW]
    · have hg' : ¬ f = g := fun e => hg e.symm
      simp only [S.setFib, hg, if_false]
      rw [this]; simp [hw, hg']
  · intro ρ; have := h3 ρ
    simp only [S.setFib]
    show (s.up ρ).isW = true ↔ _
    rw [this]; simp [hw]
  · intro g; have := h4 g
    by_cases hg : g = f
    · subst hg; intro e; simp [S.setFib, Fib.isW] at e
    · simpa only [S.setFib, hg, if_false] using this
  · intro g; have := h6 g
    by_cases hg : g = f
    · subst hg; simp only [S.setFib, if_true, Fib.isR]; simp [hr]
    · simpa only [S.setFib, hg, if_false] using this
  · intro g; have := h8 g
    by_cases hg : g = f
    · subst hg; simp [S.setFib, Fib.kOk]
    · simpa only [S.setFib, hg, if_false] using this

/-- A fiber's read is over. -/
theorem own_releaseR {s : S} {f : FId} {pos : Nat} {k : K} (h : Own s)
    (hf : s.fib f = .netR pos k) : Own ({ s with rown := none }.setFib f .idle) := by
  have hr := (h.rf f).1 (by rw [hf]; rfl)
  have hw : s.wown ≠ some (.fib f) := fun e => by have := (h.wf f).2 e; simp [hf, Fib.isW] at this
  obtain ⟨h1, h2, h3, h4, h5, h6, h7, h8, h9, h10⟩ := h
  refine ⟨h1, ?_, h3, ?_, h5, ?_, ?_, ?_, h9, h10⟩
  · intro g; have := h2 g
    by_cases hg : g = f
    · subst hg; simp only [S.setFib, if_true, Fib.isW]; simp [hw]
    · simpa only [S.setFib, hg, if_false] using this
  · intro g; have := h4 g
    by_cases hg : g = f
    · subst hg; intro e; simp [S.setFib, Fib.isW] at e
    · simpa only [S.setFib, hg, if_false] using this
  · intro g; have := h6 g
    by_cases hg : g = f
    · subst hg; simp [S.setFib, Fib.isR]
    · have hg' : ¬ f = g := fun e => hg e.symm
      simp only [S.setFib, hg, if_false]
      rw [this]; simp [hr, hg']
  · intro ρ; have := h7 ρ
    simp only [S.setFib]
    show (s.up ρ).isR = true ↔ _
    rw [this]; simp [hr]
  · intro g; have := h8 g
    by_cases hg : g = f
    · subst hg; simp [S.setFib, Fib.kOk]
    · simpa only [S.setFib, hg, if_false] using this

theorem prefix_eq_take {a b : List Nat} (h : a <+: b) : a = b.take a.length := by
  obtain ⟨t, rfl⟩ := h; simp

/-- Part of what a fiber writes is gone: everyone else has nothing of it. -/
theorem own_sent {s : S} {x : List Nat} {m : Nat} (h : Own s) (hx : x = s.e.out.take m)
    (hw : s.wown = none) : Own { s with wire := s.wire ++ x, e := s.e.consume m } := by
  obtain ⟨h1, h2, h3, h4, h5, h6, h7, h8, h9, h10⟩ := h
  refine ⟨?_, h2, h3, ?_, ?_, h6, h7, h8, h9, h10⟩
  · show (s.wire ++ x) ++ s.e.out.drop m = s.e.produced
    rw [hx, List.append_assoc, List.take_append_drop, h1]
  · intro f hf; have := (h2 f).1 hf; simp [hw] at this
  · intro f hf; have := (h3 f).1 hf; simp [hw] at this

theorem own_netWDone {s s1 : S} {f : FId} {k : Option Nat} (h : Own s) (e : s.netWDone f k = some s1) : Own s1 := by
  unfold S.netWDone at e
  split at e
  · rename_i buf c t hf
    have hk : c.ok f := by have := h.kf f; rw [hf] at this; exact this
    have hrel := own_releaseW h hf
    have hr : s.rown ≠ some (.fib f) := fun e => by have := (h.rf f).2 e; simp [hf, Fib.isR] at this
    obtain ⟨hb1, hb2⟩ := h.bf f (by rw [hf]; rfl)
    rw [hf] at hb1 hb2
    simp only [Fib.buf] at hb1 hb2
    split at e
    · simp only [Option.some.injEq] at e; subst e
      exact own_contFail (own_congr hrel rfl rfl rfl rfl rfl rfl rfl) (by rw [hk.1]; exact ⟨by simp [S.setFib, S.emit], hr⟩)
    · rename_i k
      have htake : buf.take (k + 1) = s.e.out.take (min (k + 1) buf.length) := by
        obtain ⟨t, ht⟩ := hb2
        rw [← ht, List.take_append, show min (k + 1) buf.length - buf.length = 0 from by omega]
        simp
      have hs := own_sent hrel htake rfl
      have hs2 : Own ({ s with
            wire := s.wire ++ buf.take (k + 1)
            e := s.e.consume (min (k + 1) buf.length)
            wown := none }.setFib f .idle) :=
        own_congr hs rfl rfl rfl rfl rfl rfl rfl
      have hfree : Free ({ s with
            wire := s.wire ++ buf.take (k + 1)
            e := s.e.consume (min (k + 1) buf.length)
            wown := none }.setFib f .idle) f :=
        ⟨by simp [S.setFib], hr⟩
      simp only at e
      split at e
      · rename_i ho
        simp only [Option.some.injEq] at e; subst e
        have := own_netW (k := c) (t := t) hs2 rfl hr ho hk
        refine own_congr this rfl ?_ rfl ?_ rfl rfl rfl
        · exact ((h.wf f).1 (by rw [hf]; rfl))
        · funext g; by_cases hg : g = f <;> simp [S.netW, S.setFib, hg]
      · split at e
        · simp only [Option.some.injEq] at e; subst e
          exact own_netR hs2 hfree.1 hfree.2 hk
        · exact own_cont hs2 (by rw [hk.1]; exact hfree) hk.2 e
  · simp only [Option.some.injEq] at e; subst e; exact h

theorem own_netRDone {s s1 : S} {f : FId} {r : Rd} (h : Own s) (e : s.netRDone f r = some s1) : Own s1 := by
  unfold S.netRDone at e
  split at e
  · rename_i pos c hf
    have hk : c.ok f := by have := h.kf f; rw [hf] at this; exact this
    have hrel := own_releaseR h hf
    have hw : s.wown ≠ some (.fib f) := fun e => by have := (h.wf f).2 e; simp [hf, Fib.isW] at this
    have hfree : ∀ t : S, t.wown = s.wown → t.rown = none → Free t c.fid := by
      intro t t1 t2; rw [hk.1]; exact ⟨by rw [t1]; exact hw, by simp [t2]⟩
    split at e
    · simp only [Option.some.injEq] at e; subst e
      exact own_contFail hrel (hfree _ rfl rfl)
    · simp only [Option.some.injEq] at e; subst e
      exact own_contFail hrel (hfree _ rfl rfl)
    · split at e
      · simp only [Option.some.injEq] at e; subst e
        exact own_contFail hrel (hfree _ rfl rfl)
      · split at e
        · simp at e
        · rename_i bs _ _
          exact own_cont (own_congr (own_commit (bs := bs) (a := s.arrived ++ bs) hrel) rfl rfl rfl rfl rfl rfl rfl)
            (hfree _ rfl rfl) hk.2 e
  · simp only [Option.some.injEq] at e; subst e; exact h

theorem own_resume {s s1 : S} {f : FId} (h : Own s) (e : s.resume f = some s1) : Own s1 := by
  unfold S.resume at e
  split at e
  · rename_i k hf
    have hk : k.ok f := by have := h.kf f; rw [hf] at this; exact this
    have hfree := h.free_of_idle (f := f) (by rw [hf]; rfl) (by rw [hf]; rfl)
    split at e
    · exact own_cont (own_setFib h hfree.1 hfree.2 rfl rfl (kOk_idle f)) (by rw [hk.1]; exact hfree) hk.2 e
    · simp only [Option.some.injEq] at e; subst e; exact h
  · rename_i k hf
    have hk : k.ok f := by have := h.kf f; rw [hf] at this; exact this
    have hfree := h.free_of_idle (f := f) (by rw [hf]; rfl) (by rw [hf]; rfl)
    split at e
    · exact own_cont (own_setFib h hfree.1 hfree.2 rfl rfl (kOk_idle f)) (by rw [hk.1]; exact hfree) hk.2 e
    · simp only [Option.some.injEq] at e; subst e; exact h
  · rename_i hf
    have hfree := h.free_of_idle (f := f) (by rw [hf]; rfl) (by rw [hf]; rfl)
    split at e
    · simp only [Option.some.injEq] at e; subst e
      exact own_idle (own_congr h rfl rfl rfl rfl rfl rfl rfl : Own { s with shut := .done }) hfree _
    · simp only [Option.some.injEq] at e; subst e; exact h
  · simp only [Option.some.injEq] at e; subst e; exact h

end Verif.Tls
