import Verif.Tls.Logs

/-! # The blocking and the non-blocking calls follow the rules -/
namespace Verif.Tls

def K.wm : K → WSt → Prop
  | .wOp iov n, st => n ≤ iov.flatten.length ∧ st = .busy iov.flatten (iov.flatten.take n)
  | .wFin n, st => ∃ d, n ≤ d.length ∧ st = .busy d (d.take n)
  | _, _ => False

/-- Where the writing fiber is, in terms of the rules. -/
def Fib.wm : Fib → WSt → Prop
  | .idle, st => st = .idle
  | .netW _ k _, st | .netR _ k, st | .waitW k, st | .waitR k, st => k.wm st
  | .waitIo, _ => False

def K.rm : K → RSt → Prop
  | .rOp _ got, st => ∃ a, a.length = got ∧ st = .busy a
  | _, _ => False

/-- Where the reading fiber is. -/
def Fib.rm : Fib → RSt → Prop
  | .idle, st => st = .idle
  | .netW _ k _, st | .netR _ k, st | .waitW k, st | .waitR k, st => k.rm st
  | .waitIo, _ => False

structure LogS (s : S) : Prop where
  w : (s.fib .w).wm (wst .sync s.log)
  r : (s.fib .r).rm (rst .sync s.log)
  tw : wst .try_ s.log = .idle
  tr : rst .try_ s.log = .idle

theorem LogS.init (script ups hook) : LogS (S.init script ups hook) := ⟨rfl, rfl, rfl, rfl⟩

/-! ### Writes -/

abbrev WM (s : S) : Prop := (s.fib .w).wm (wst .sync s.log)

theorem wm_netW (s : S) (k : K) (t : Bool) (h : k.wm (wst .sync s.log)) : WM (s.netW .w k t) := by
  simpa [WM, S.netW, S.setFib, Fib.wm] using h

theorem wm_netR (s : S) (k : K) (h : k.wm (wst .sync s.log)) : WM (s.netR .w k) := by
  unfold S.netR
  split <;> simpa [WM, S.setFib, Fib.wm] using h

theorem wm_upRead (s : S) (k : K) (h : k.wm (wst .sync s.log)) : WM (s.upRead .w k) := by
  unfold S.upRead
  split
  · exact wm_netW _ _ _ h
  · exact wm_netR _ _ h

theorem wm_upWrite (s : S) (k : K) (h : k.wm (wst .sync s.log)) : WM (s.upWrite .w k) := by
  unfold S.upWrite
  split
  · simpa [WM, S.setFib, Fib.wm] using h
  · exact wm_netW _ _ _ h

theorem wm_wRet (s : S) (n : Nat) {d : List Nat} (hn : n ≤ d.length) (h : wst .sync s.log = .busy d (d.take n)) :
    WM (s.wRet n) := by
  simp only [WM, S.wRet, S.emit, S.setFib, if_true, Fib.wm, wst_append, List.foldl_cons, List.foldl_nil, h, wnext]
  rw [if_pos (by simp; omega)]

theorem wm_wFail (s : S) (x : Err) {d a : List Nat} (h : wst .sync s.log = .busy d a) : WM (s.wFail x) := by
  simp only [WM, S.wFail, S.emit, S.setFib, if_true, Fib.wm, wst_append, List.foldl_cons, List.foldl_nil, h, wnext]

theorem wm_wFinish (s : S) (n : Nat) {d : List Nat} (hn : n ≤ d.length) (h : wst .sync s.log = .busy d (d.take n)) :
    WM (s.wFinish n) := by
  unfold S.wFinish
  split
  · exact wm_wRet _ _ hn h
  · exact wm_upWrite _ _ ⟨d, hn, h⟩

theorem wm_wLoop {s s1 : S} {iov : List (List Nat)} (h : wst .sync s.log = .busy iov.flatten [])
    (e : s.wLoop iov = some s1) : WM s1 := by
  unfold S.wLoop at e
  split at e
  · simp at e
  · rename_i p hp
    have hp := push_spec hp
    have hle : p.written ≤ iov.flatten.length := by have := hp.le; omega
    have h2 : wst .sync ({ s with e := p.eng, wmark := p.eng.produced.length }.emit
        [.enc .sync (iov.flatten.take p.written)]).log = .busy iov.flatten (iov.flatten.take p.written) := by
      simp only [S.emit, wst_append, h, List.foldl_cons, List.foldl_nil, wnext, if_true, List.nil_append]
      rw [if_pos (List.take_prefix _ _)]
    simp only at e
    split at e
    · split at e
      · simp at e
      · simp only [Option.some.injEq] at e; subst e; exact wm_wFinish _ _ hle h2
    · simp only [Option.some.injEq] at e; subst e; exact wm_wFail _ _ h2
    · simp only [Option.some.injEq] at e; subst e; exact wm_wFail _ _ h2
    · simp only [Option.some.injEq] at e; subst e; exact wm_upRead _ _ ⟨hle, h2⟩
    · simp only [Option.some.injEq] at e; subst e; exact wm_upWrite _ _ ⟨hle, h2⟩

theorem wm_cont {s s1 : S} {k : K} (h : k.wm (wst .sync s.log)) (e : s.cont k = some s1) : WM s1 := by
  cases k with
  | wOp iov n =>
    simp only [S.cont] at e
    split at e
    · simp only [Option.some.injEq] at e; subst e; exact wm_wFinish _ _ h.1 h.2
    · rename_i hn
      have : n = 0 := by omega
      subst this
      exact wm_wLoop (by simpa using h.2) e
  | wFin n =>
    simp only [S.cont, Option.some.injEq] at e; subst e
    obtain ⟨d, h1, h2⟩ := h
    exact wm_wRet _ _ h1 h2
  | rOp caps n => exact h.elim
  | hSend => exact h.elim

theorem wm_contFail {s : S} {k : K} {x : Err} (h : k.wm (wst .sync s.log)) : WM (s.contFail k x) := by
  cases k with
  | wOp iov n => exact wm_wFail _ _ h.2
  | wFin n => obtain ⟨d, h1, h2⟩ := h; exact wm_wFail _ _ h2
  | rOp caps n => exact h.elim
  | hSend => exact h.elim

theorem wm_netWDone {s s1 : S} {k : Option Nat} (h : WM s) (e : s.netWDone .w k = some s1) : WM s1 := by
  unfold S.netWDone at e
  split at e
  · rename_i buf c t hf
    have hm : c.wm (wst .sync s.log) := by simpa [WM, hf, Fib.wm] using h
    split at e
    · simp only [Option.some.injEq] at e; subst e
      refine wm_contFail ?_
      show c.wm (wst .sync (s.log ++ [.upFail]))
      rw [wst_quiet _ _ _ (by simp [Obs.wsrc])]; exact hm
    · simp only at e
      split at e
      · simp only [Option.some.injEq] at e; subst e
        simpa [WM, S.setFib, Fib.wm] using hm
      · split at e
        · simp only [Option.some.injEq] at e; subst e
          exact wm_netR _ _ hm
        · exact wm_cont (by exact hm) e
  · simp only [Option.some.injEq] at e; subst e; exact h

theorem wm_netRDone {s s1 : S} {r : Rd} (h : WM s) (e : s.netRDone .w r = some s1) : WM s1 := by
  unfold S.netRDone at e
  split at e
  · rename_i pos c hf
    have hm : c.wm (wst .sync s.log) := by simpa [WM, hf, Fib.wm] using h
    split at e
    · simp only [Option.some.injEq] at e; subst e; exact wm_contFail hm
    · simp only [Option.some.injEq] at e; subst e; exact wm_contFail hm
    · split at e
      · simp only [Option.some.injEq] at e; subst e; exact wm_contFail hm
      · split at e
        · simp at e
        · exact wm_cont (by exact hm) e
  · simp only [Option.some.injEq] at e; subst e; exact h

theorem wm_resume {s s1 : S} (h : WM s) (e : s.resume .w = some s1) : WM s1 := by
  unfold S.resume at e
  split at e
  · rename_i k hf
    have hm : k.wm (wst .sync s.log) := by simpa [WM, hf, Fib.wm] using h
    split at e
    · exact wm_cont (by exact hm) e
    · simp only [Option.some.injEq] at e; subst e; exact h
  · rename_i k hf
    have hm : k.wm (wst .sync s.log) := by simpa [WM, hf, Fib.wm] using h
    split at e
    · exact wm_cont (by exact hm) e
    · simp only [Option.some.injEq] at e; subst e; exact h
  · rename_i hf
    exfalso
    simp [WM, hf, Fib.wm] at h
  · simp only [Option.some.injEq] at e; subst e; exact h

theorem wm_write {s s1 : S} {iov : List (List Nat)} (h : WM s) (e : s.step (.write iov) = some s1) : WM s1 := by
  simp only [S.step] at e
  split at e
  · rename_i hi
    have hm : wst .sync s.log = .idle := by simpa [WM, hi, Fib.wm] using h
    refine wm_wLoop ?_ e
    simp [S.emit, wst_append, hm, wnext]
  · simp only [Option.some.injEq] at e; subst e; exact h

/-! ### Reads -/

abbrev RM (s : S) : Prop := (s.fib .r).rm (rst .sync s.log)

theorem rm_netW (s : S) (k : K) (t : Bool) (h : k.rm (rst .sync s.log)) : RM (s.netW .r k t) := by
  simpa [RM, S.netW, S.setFib, Fib.rm] using h

theorem rm_netR (s : S) (k : K) (h : k.rm (rst .sync s.log)) : RM (s.netR .r k) := by
  unfold S.netR
  split <;> simpa [RM, S.setFib, Fib.rm] using h

theorem rm_upRead (s : S) (k : K) (h : k.rm (rst .sync s.log)) : RM (s.upRead .r k) := by
  unfold S.upRead
  split
  · exact rm_netW _ _ _ h
  · exact rm_netR _ _ h

theorem rm_upWrite (s : S) (k : K) (h : k.rm (rst .sync s.log)) : RM (s.upWrite .r k) := by
  unfold S.upWrite
  split
  · simpa [RM, S.setFib, Fib.rm] using h
  · exact rm_netW _ _ _ h

theorem rm_rRet (s : S) {a : List Nat} (n : Nat) (hn : n = a.length) (h : rst .sync s.log = .busy a) : RM (s.rRet n) := by
  simp only [RM, S.rRet, S.emit, S.setFib, if_true, Fib.rm, rst_append, List.foldl_cons, List.foldl_nil, h, rnext]
  rw [if_pos hn]

theorem rm_rFail (s : S) {a : List Nat} (n : Nat) (x : Err) (hn : n = a.length) (h : rst .sync s.log = .busy a) :
    RM (s.rFail n x) := by
  unfold S.rFail
  split
  · exact rm_rRet _ _ hn h
  · have : a = [] := List.length_eq_zero_iff.1 (by omega)
    subst this
    simp [RM, S.emit, S.setFib, Fib.rm, rst_append, h, rnext]

theorem rm_rLoop (s : S) (caps : List Nat) (n : Nat) {a : List Nat} (hc : 0 ∉ caps) (hn : a.length = n)
    (h : rst .sync s.log = .busy a) : RM (s.rLoop caps n) := by
  unfold S.rLoop
  cases hr : readLoop (s.e.script.length + 1) s.e caps [] with
  | mk stop x =>
    obtain ⟨caps1, bs, e1⟩ := x
    have h2 : rst .sync ({ s with e := e1 }.emit [.dec .sync bs]).log = .busy (a ++ bs) := by
      simp [S.emit, rst_append, h, rnext]
    have hl : n + bs.length = (a ++ bs).length := by simp [hn]
    simp only
    split
    · exact rm_rRet _ _ hl h2
    · exact rm_rRet _ _ hl h2
    · exact rm_rFail _ _ _ hl h2
    · split
      · exact rm_rRet _ _ hl h2
      · exact rm_upRead _ _ ⟨_, hl.symm, h2⟩
    · exact rm_upWrite _ _ ⟨_, hl.symm, h2⟩

theorem rm_cont {s s1 : S} {k : K} (hk : k.caps) (h : k.rm (rst .sync s.log)) (e : s.cont k = some s1) : RM s1 := by
  cases k with
  | rOp caps n =>
    simp only [S.cont, Option.some.injEq] at e; subst e
    obtain ⟨a, h1, h2⟩ := h
    exact rm_rLoop _ _ _ hk.2 h1 h2
  | wOp iov n => exact h.elim
  | wFin n => exact h.elim
  | hSend => exact h.elim

theorem rm_contFail {s : S} {k : K} {x : Err} (h : k.rm (rst .sync s.log)) : RM (s.contFail k x) := by
  cases k with
  | rOp caps n => obtain ⟨a, h1, h2⟩ := h; exact rm_rFail _ _ _ h1.symm h2
  | wOp iov n => exact h.elim
  | wFin n => exact h.elim
  | hSend => exact h.elim

theorem rm_netWDone {s s1 : S} {k : Option Nat} (o : Own s) (h : RM s) (e : s.netWDone .r k = some s1) : RM s1 := by
  unfold S.netWDone at e
  split at e
  · rename_i buf c t hf
    have hk : c.ok .r := by have := o.kf .r; rw [hf] at this; exact this
    have hm : c.rm (rst .sync s.log) := by simpa [RM, hf, Fib.rm] using h
    split at e
    · simp only [Option.some.injEq] at e; subst e
      refine rm_contFail ?_
      show c.rm (rst .sync (s.log ++ [.upFail]))
      rw [rst_quiet _ _ _ (by simp [Obs.rsrc])]; exact hm
    · simp only at e
      split at e
      · simp only [Option.some.injEq] at e; subst e
        simpa [RM, S.setFib, Fib.rm] using hm
      · split at e
        · simp only [Option.some.injEq] at e; subst e
          exact rm_netR _ _ hm
        · exact rm_cont hk.2 (by exact hm) e
  · simp only [Option.some.injEq] at e; subst e; exact h

theorem rm_netRDone {s s1 : S} {r : Rd} (o : Own s) (h : RM s) (e : s.netRDone .r r = some s1) : RM s1 := by
  unfold S.netRDone at e
  split at e
  · rename_i pos c hf
    have hk : c.ok .r := by have := o.kf .r; rw [hf] at this; exact this
    have hm : c.rm (rst .sync s.log) := by simpa [RM, hf, Fib.rm] using h
    split at e
    · simp only [Option.some.injEq] at e; subst e; exact rm_contFail hm
    · simp only [Option.some.injEq] at e; subst e; exact rm_contFail hm
    · split at e
      · simp only [Option.some.injEq] at e; subst e; exact rm_contFail hm
      · split at e
        · simp at e
        · exact rm_cont hk.2 (by exact hm) e
  · simp only [Option.some.injEq] at e; subst e; exact h

theorem rm_resume {s s1 : S} (o : Own s) (h : RM s) (e : s.resume .r = some s1) : RM s1 := by
  unfold S.resume at e
  split at e
  · rename_i k hf
    have hk : k.ok .r := by have := o.kf .r; rw [hf] at this; exact this
    have hm : k.rm (rst .sync s.log) := by simpa [RM, hf, Fib.rm] using h
    split at e
    · exact rm_cont hk.2 (by exact hm) e
    · simp only [Option.some.injEq] at e; subst e; exact h
  · rename_i k hf
    have hk : k.ok .r := by have := o.kf .r; rw [hf] at this; exact this
    have hm : k.rm (rst .sync s.log) := by simpa [RM, hf, Fib.rm] using h
    split at e
    · exact rm_cont hk.2 (by exact hm) e
    · simp only [Option.some.injEq] at e; subst e; exact h
  · rename_i hf
    exfalso
    simp [RM, hf, Fib.rm] at h
  · simp only [Option.some.injEq] at e; subst e; exact h

theorem rm_recv {s s1 : S} {caps : List Nat} (h : RM s) (e : s.step (.recv caps) = some s1) : RM s1 := by
  simp only [S.step] at e
  split at e
  · rename_i hi
    have hm : rst .sync s.log = .idle := by simpa [RM, hi, Fib.rm] using h
    split at e
    · simp at e
    · rename_i hc
      simp only [Option.some.injEq] at e; subst e
      refine rm_rLoop (a := []) _ _ _ (fun x => hc (Or.inr x)) rfl ?_
      simp [S.emit, rst_append, hm, rnext]
  · simp only [Option.some.injEq] at e; subst e; exact h

/-! ### All steps -/

theorem LogS.other {s s1 : S} {f : FId} {cc : Prop} (h : LogS s) (k : FrameF cc f s s1) (hw : f = .w → WM s1)
    (hr : f = .r → RM s1) : LogS s1 := by
  obtain ⟨l, l1, l2, _⟩ := k.log
  refine ⟨?_, ?_, ?_, ?_⟩
  · by_cases hf : f = .w
    · exact hw hf
    · rw [k.fib .w (fun x => hf x.symm), l1, wst_quiet]
      · exact h.w
      · intro o ho; rcases isF_wsrc (l2 o ho) with x | x
        · simp [x]
        · exact absurd x.1 hf
  · by_cases hf : f = .r
    · exact hr hf
    · rw [k.fib .r (fun x => hf x.symm), l1, rst_quiet]
      · exact h.r
      · intro o ho; rcases isF_rsrc (l2 o ho) with x | x
        · simp [x]
        · exact absurd x.1 hf
  · rw [l1, wst_quiet]
    · exact h.tw
    · intro o ho; rcases isF_wsrc (l2 o ho) with x | x <;> simp [x]
  · rw [l1, rst_quiet]
    · exact h.tr
    · intro o ho; rcases isF_rsrc (l2 o ho) with x | x <;> simp [x]

theorem LogS.q {s s1 : S} (h : LogS s) (k : FrameQ s s1) : LogS s1 := by
  obtain ⟨l, l1, l2⟩ := k.log
  have hw : ∀ o ∈ l, o.wsrc = none ∨ o.wsrc = some .async := fun o ho => isQ_wsrc (l2 o ho)
  have hr : ∀ o ∈ l, o.rsrc = none ∨ o.rsrc = some .async := fun o ho => isQ_rsrc (l2 o ho)
  refine ⟨?_, ?_, ?_, ?_⟩
  · rw [k.fib, l1, wst_quiet]
    · exact h.w
    · intro o ho; rcases hw o ho with x | x <;> simp [x]
  · rw [k.fib, l1, rst_quiet]
    · exact h.r
    · intro o ho; rcases hr o ho with x | x <;> simp [x]
  · rw [l1, wst_quiet]
    · exact h.tw
    · intro o ho; rcases hw o ho with x | x <;> simp [x]
  · rw [l1, rst_quiet]
    · exact h.tr
    · intro o ho; rcases hr o ho with x | x <;> simp [x]

/-- Pieces of a prefix. -/
theorem foldl_enc (src : Src) (d : List Nat) (l : List (List Nat)) : ∀ a, a ++ l.flatten <+: d →
    (l.map (Obs.enc src)).foldl (wnext src) (.busy d a) = .busy d (a ++ l.flatten) := by
  induction l with
  | nil => intro a _; simp
  | cons v l ih =>
    intro a h
    simp only [List.flatten_cons, ← List.append_assoc] at h
    simp only [List.map_cons, List.foldl_cons, wnext, if_true]
    rw [if_pos ((List.prefix_append _ _).trans h), ih _ h]
    simp

theorem foldl_dec (src : Src) (l : List (List Nat)) : ∀ a,
    (l.map (Obs.dec src)).foldl (rnext src) (.busy a) = .busy (a ++ l.flatten) := by
  induction l with
  | nil => intro a; simp
  | cons v l ih =>
    intro a
    simp only [List.map_cons, List.foldl_cons, rnext, if_true]
    rw [ih]; simp

theorem LogS.trySend {s s1 : S} {iov : List (List Nat)} (h : LogS s) (t : TSend s iov s1) : LogS s1 := by
  obtain ⟨l, n, o, d1, d2, d3, d4, d5, d6⟩ := t.dat
  have ho : o.rsrc = none ∧ o.wsrc = some .try_ := by
    rcases d5 with rfl | ⟨_, e, rfl⟩ <;> exact ⟨rfl, rfl⟩
  have hr : ∀ src, ∀ x ∈ ([.call .try_ iov.flatten] ++ l.map (Obs.enc .try_) ++ [o] : List Obs), x.rsrc ≠ some src := by
    intro src x hx
    simp only [List.mem_append, List.mem_singleton, List.mem_map] at hx
    rcases hx with (rfl | ⟨_, _, rfl⟩) | rfl
    · simp [Obs.rsrc]
    · simp [Obs.rsrc]
    · simp [ho.1]
  refine ⟨?_, ?_, ?_, ?_⟩
  · rw [t.fib, d1, wst_quiet]
    · exact h.w
    · intro x hx
      simp only [List.mem_append, List.mem_singleton, List.mem_map] at hx
      rcases hx with (rfl | ⟨_, _, rfl⟩) | rfl
      · simp [Obs.wsrc]
      · simp [Obs.wsrc]
      · simp [ho.2]
  · rw [t.fib, d1, rst_quiet _ _ _ (hr _)]; exact h.r
  · rw [d1, wst_append, h.tw]
    simp only [List.foldl_append, List.foldl_cons, List.foldl_nil, wnext, if_true]
    rw [foldl_enc _ _ _ _ (by rw [List.nil_append, d2]; exact List.take_prefix _ _), d2]
    rcases d5 with rfl | ⟨_, e, rfl⟩
    · simp only [if_true, List.nil_append]
      rw [if_pos (by rw [List.length_take]; omega)]
    · simp
  · rw [d1, rst_quiet _ _ _ (hr _)]; exact h.tr

theorem LogS.tryRecv {s s1 : S} (h : LogS s) (t : TRecvd s s1) : LogS s1 := by
  obtain ⟨l, l2, o, d1, d2, d3, d4, _⟩ := t.dat
  have ho : o.wsrc = none ∧ o.rsrc = some .try_ := by
    rcases d4 with rfl | ⟨_, e, rfl⟩ <;> exact ⟨rfl, rfl⟩
  have h2 : ∀ x ∈ l2, x.wsrc = none ∧ x.rsrc = none := by
    intro x hx
    rcases d3 with rfl | rfl
    · simp at hx
    · simp only [List.mem_singleton] at hx; subst hx; exact ⟨rfl, rfl⟩
  have hr : ∀ src, ∀ x ∈ ([.rcall .try_] ++ l.map (Obs.dec .try_) ++ l2 ++ [o] : List Obs), x.wsrc ≠ some src := by
    intro src x hx
    simp only [List.mem_append, List.mem_singleton, List.mem_map] at hx
    rcases hx with ((rfl | ⟨_, _, rfl⟩) | hx) | rfl
    · simp [Obs.wsrc]
    · simp [Obs.wsrc]
    · simp [(h2 x hx).1]
    · simp [ho.1]
  refine ⟨?_, ?_, ?_, ?_⟩
  · rw [t.fib, d1, wst_quiet _ _ _ (hr _)]; exact h.w
  · rw [t.fib, d1, rst_quiet]
    · exact h.r
    · intro x hx
      simp only [List.mem_append, List.mem_singleton, List.mem_map] at hx
      rcases hx with ((rfl | ⟨_, _, rfl⟩) | hx) | rfl
      · simp [Obs.rsrc]
      · simp [Obs.rsrc]
      · simp [(h2 x hx).2]
      · simp [ho.2]
  · rw [d1, wst_quiet _ _ _ (hr _)]; exact h.tw
  · rw [d1, rst_append, h.tr]
    simp only [List.foldl_append, List.foldl_cons, List.foldl_nil, rnext, if_true]
    rw [foldl_dec, List.nil_append]
    have : l2.foldl (rnext .try_) (.busy l.flatten) = .busy l.flatten := by
      rcases d3 with rfl | rfl <;> rfl
    rw [this]
    rcases d4 with rfl | ⟨hl, e, rfl⟩
    · simp [rnext]
    · rw [hl]; simp [rnext]

theorem logS_step {s s1 : S} {a : Act} (o : Own s) (h : LogS s) (e : s.step a = some s1) : LogS s1 := by
  cases a with
  | write iov => exact h.other (cc := False) (ff_write e) (fun _ => wm_write h.w e) (by simp)
  | recv caps => exact h.other (cc := False) (ff_recv e) (by simp) (fun _ => rm_recv h.r e)
  | shutdown => exact h.other (cc := False) (ff_shutdown e) (by simp) (by simp)
  | trySend iov => exact h.trySend (trySend_spec o e)
  | tryRecv n => exact h.tryRecv (tryRecv_spec o e)
  | asyncRead n => exact h.q (fq_asyncRead e)
  | asyncWrite iov => exact h.q (fq_asyncWrite e)
  | setHook on => simp only [S.step, Option.some.injEq] at e; subst e; exact ⟨h.w, h.r, h.tw, h.tr⟩
  | netW f k =>
    exact h.other (cc := False) (ff_netWDone o e) (fun hf => by subst hf; exact wm_netWDone h.w e)
      (fun hf => by subst hf; exact rm_netWDone o h.r e)
  | netR f r =>
    exact h.other (cc := True) (ff_netRDone o (fun _ => trivial) e) (fun hf => by subst hf; exact wm_netRDone h.w e)
      (fun hf => by subst hf; exact rm_netRDone o h.r e)
  | resume f =>
    exact h.other (cc := False) (ff_resume o e) (fun hf => by subst hf; exact wm_resume h.w e)
      (fun hf => by subst hf; exact rm_resume o h.r e)
  | aW ρ k => exact h.q (fq_aWDone o e)
  | aR ρ r => exact h.q (fq_aRDone o e)

end Verif.Tls
