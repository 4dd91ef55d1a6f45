import Verif.Tls.FrameF

/-! # What went through the engine is what the log says -/
namespace Verif.Tls

structure DataOk (s : S) : Prop where
  enc : encs s.log = s.e.accepted
  dec : decs s.log = s.e.given

theorem DataOk.init (script ups hook) : DataOk (S.init script ups hook) := ⟨rfl, rfl⟩

theorem DataOk.ff {s s1 : S} {f : FId} {cc : Prop} (h : DataOk s) (k : FrameF cc f s s1) : DataOk s1 := by
  obtain ⟨l, k1, _, k2, k3⟩ := k.log
  exact ⟨by rw [k1, encs_append, h.enc, k2], by rw [k1, decs_append, h.dec, k3]⟩

theorem DataOk.congr {s s1 : S} (h : DataOk s) (a : s1.e.accepted = s.e.accepted) (g : s1.e.given = s.e.given)
    (l : s1.log = s.log) : DataOk s1 := ⟨by rw [l, a]; exact h.enc, by rw [l, g]; exact h.dec⟩

theorem DataOk.emit {s : S} (h : DataOk s) (l : List Obs) (h1 : encs l = []) (h2 : decs l = []) : DataOk (s.emit l) := by
  refine ⟨?_, ?_⟩
  · rw [show (s.emit l).log = s.log ++ l from rfl, encs_append, h1, List.append_nil]; exact h.enc
  · rw [show (s.emit l).log = s.log ++ l from rfl, decs_append, h2, List.append_nil]; exact h.dec

/-- A call of the engine, logged. -/
theorem DataOk.eng {s : S} {e1 : Eng} (h : DataOk s) (l : List Obs) (h1 : e1.accepted = s.e.accepted ++ encs l)
    (h2 : e1.given = s.e.given ++ decs l) : DataOk ({ s with e := e1 }.emit l) := by
  refine ⟨?_, ?_⟩
  · show encs (s.log ++ l) = e1.accepted
    rw [encs_append, h.enc]; exact h1.symm
  · show decs (s.log ++ l) = e1.given
    rw [decs_append, h.dec]; exact h2.symm

theorem data_startUpW {s s1 : S} {ρ : Role} (h : DataOk s) (e : s.startUpW ρ = some s1) : DataOk s1 := by
  unfold S.startUpW at e
  split at e <;> split at e <;> simp only [Option.some.injEq, reduceCtorEq] at e <;> subst e <;>
    exact h.congr rfl rfl rfl

theorem data_startUpR {s s1 : S} {ρ : Role} (h : DataOk s) (e : s.startUpR ρ = some s1) : DataOk s1 := by
  unfold S.startUpR at e
  repeat' split at e
  all_goals simp only [Option.some.injEq, reduceCtorEq] at e
  all_goals (subst e; exact h.congr rfl rfl rfl)

theorem data_complete {s : S} {ρ : Role} {x : Except Err Nat} (h : DataOk s) : DataOk (s.complete ρ x) := by
  unfold S.complete
  split
  · exact h
  · have h2 : DataOk (s.setReq ρ none) := h.congr rfl rfl rfl
    simp only
    split
    · cases x <;> exact h2.emit _ rfl rfl
    · cases x <;> exact h2.emit _ rfl rfl
    · exact h2
    · refine DataOk.emit (s := { s.setReq ρ none with drain := false }) (h2.congr rfl rfl rfl) _ ?_ ?_ <;> split <;> rfl

theorem data_handleOp {s s1 : S} {ρ : Role} {o : Op} (h : DataOk s) (e : s.handleOp ρ o = some s1) : DataOk s1 := by
  unfold S.handleOp at e
  split at e
  · split at e
    · exact data_startUpW (h.congr rfl rfl rfl : DataOk (s.modReq ρ fun q => { q with shouldRead := true })) e
    · exact data_startUpR h e
  · exact data_startUpW h e
  · simp only [Option.some.injEq] at e; subst e; exact data_complete h
  · simp only [Option.some.injEq] at e; subst e; exact data_complete h

theorem data_setReq {s : S} {ρ : Role} {q : Option Req} (h : DataOk s) : DataOk (s.setReq ρ q) := h.congr rfl rfl rfl

theorem data_asyncRead {s s1 : S} {n : Nat} (h : DataOk s) (e : s.asyncRead n = some s1) : DataOk s1 := by
  unfold S.asyncRead at e
  split at e
  · simp at e
  cases hr : s.e.read n with
  | mk r e1 =>
    rw [hr] at e
    have hs := read_spec hr
    cases r with
    | ok bs =>
      simp only [Option.some.injEq] at e; subst e
      exact h.eng _ (by simpa [encs] using hs.2.1) (by simpa [decs] using hs.2.2.2.2.1)
    | error o =>
      have h2 : DataOk { s with e := e1 } := h.congr hs.2.1 hs.2.2.1 rfl
      cases o with
      | abrupt => simp only [Option.some.injEq] at e; subst e; exact h2.emit _ rfl rfl
      | graceful => simp only [Option.some.injEq] at e; subst e; exact h2.emit _ rfl rfl
      | needRead => exact data_handleOp (data_setReq h2) e
      | needWrite => exact data_handleOp (data_setReq h2) e

theorem data_push {s : S} {iov : List (List Nat)} {p : Push} (h : DataOk s) (hp : push s.e iov = some p) (src : Src) :
    DataOk ({ s with e := p.eng }.emit [.enc src (iov.flatten.take p.written)]) := by
  have hp := push_spec hp
  exact h.eng _ (by simpa [encs] using hp.acc) (by simpa [decs] using hp.given)

theorem data_asyncWrite {s s1 : S} {iov : List (List Nat)} (h : DataOk s) (e : s.asyncWrite iov = some s1) : DataOk s1 := by
  unfold S.asyncWrite at e
  split at e
  · simp at e
  split at e
  · simp at e
  · rename_i p hp
    have h2 := data_push h hp .async
    simp only at e
    split at e
    · exact data_startUpW (data_setReq h2) e
    · exact data_handleOp (data_setReq h2) e

theorem data_roleAction {s s1 : S} {ρ : Role} (h : DataOk s) (e : s.roleAction ρ = some s1) : DataOk s1 := by
  unfold S.roleAction at e
  split at e
  · simp only [Option.some.injEq] at e; subst e; exact h
  split at e
  · rename_i n _
    cases hr : s.e.read n with
    | mk r e1 =>
      rw [hr] at e
      have hs := read_spec hr
      cases r with
      | ok bs =>
        simp only [Option.some.injEq] at e; subst e
        exact data_complete (h.eng _ (by simpa [encs] using hs.2.1) (by simpa [decs] using hs.2.2.2.2.1))
      | error o => exact data_handleOp (h.congr hs.2.1 hs.2.2.1 rfl : DataOk { s with e := e1 }) e
  · simp only [Option.some.injEq] at e; subst e; exact data_complete h
  · split at e
    · simp only [Option.some.injEq] at e; subst e; exact data_complete h
    · split at e
      · simp at e
      · rename_i p hp
        have h2 := data_push h hp .async
        simp only at e
        split at e
        · exact data_startUpW (data_setReq h2) e
        · exact data_handleOp (data_setReq h2) e

theorem data_runPending {s s1 : S} (h : DataOk s) (e : s.runPending = some s1) : DataOk s1 := by
  unfold S.runPending at e
  split at e
  · simp only [Option.some.injEq] at e; subst e; exact h
  · have h1 : DataOk { s with blocked := none } := h.congr rfl rfl rfl
    simp only at e
    split at e
    · simp only [Option.some.injEq] at e; subst e; exact h1
    · split at e
      · exact data_startUpR h1 e
      · split at e
        · exact data_asyncWrite (data_setReq h1) e
        · exact data_asyncWrite (data_setReq h1) e
        · exact data_asyncRead (data_setReq h1) e

theorem data_aWDone {s s1 : S} {ρ : Role} {k : Option Nat} (h : DataOk s) (e : s.aWDone ρ k = some s1) : DataOk s1 := by
  unfold S.aWDone at e
  split at e
  · simp only [Option.some.injEq] at e; subst e; exact h
  rename_i q hq
  split at e
  · rename_i buf hu
    simp only at e
    split at e
    · split at e
      · simp at e
      · rename_i s2 he
        simp only [Option.some.injEq] at e; subst e
        have h2 : DataOk { s.setReq ρ (some { q with up := .none }) with wown := none } := h.congr rfl rfl rfl
        exact data_complete (data_runPending (h2.emit [.upFail] rfl rfl) he)
    · rename_i k
      split at e
      · simp only [Option.some.injEq] at e; subst e; exact h.congr rfl rfl rfl
      · split at e
        · simp at e
        · rename_i s2 he
          have h2 := data_runPending (h.congr (by rfl) (by rfl) (by rfl)) he
          split at e
          · exact data_startUpR h2 e
          · exact data_roleAction h2 e
  · simp only [Option.some.injEq] at e; subst e; exact h

theorem data_aRDone {s s1 : S} {ρ : Role} {r : Rd} (h : DataOk s) (e : s.aRDone ρ r = some s1) : DataOk s1 := by
  unfold S.aRDone at e
  split at e
  · simp only [Option.some.injEq] at e; subst e; exact h
  rename_i q hq
  split at e
  · rename_i pos hu
    simp only at e
    split at e
    · simp at e
    · rename_i s2 he
      have h2 := data_runPending (h.congr (by rfl) (by rfl) (by rfl)) he
      split at e
      · simp only [Option.some.injEq] at e; subst e; exact data_complete h2
      · simp only [Option.some.injEq] at e; subst e; exact data_complete h2
      · split at e
        · simp only [Option.some.injEq] at e; subst e; exact data_complete h2
        · split at e
          · simp at e
          · refine data_roleAction (DataOk.congr h2 ?_ ?_ ?_) e <;> rfl
  · simp only [Option.some.injEq] at e; subst e; exact h

theorem encs_map (src : Src) (l : List (List Nat)) : encs (l.map (Obs.enc src)) = l.flatten := by
  induction l with
  | nil => rfl
  | cons a l ih => rw [List.map_cons, ← List.singleton_append, encs_append, ih]; simp [encs]

theorem decs_map (src : Src) (l : List (List Nat)) : decs (l.map (Obs.dec src)) = l.flatten := by
  induction l with
  | nil => rfl
  | cons a l ih => rw [List.map_cons, ← List.singleton_append, decs_append, ih]; simp [decs]

theorem encs_map' (src : Src) (l : List (List Nat)) : encs (l.map (Obs.dec src)) = [] := by
  induction l with
  | nil => rfl
  | cons a l ih => rw [List.map_cons, ← List.singleton_append, encs_append, ih]; simp [encs]

theorem decs_map' (src : Src) (l : List (List Nat)) : decs (l.map (Obs.enc src)) = [] := by
  induction l with
  | nil => rfl
  | cons a l ih => rw [List.map_cons, ← List.singleton_append, decs_append, ih]; simp [decs]

theorem data_trySend {s s1 : S} {iov : List (List Nat)} (h : DataOk s) (t : TSend s iov s1) : DataOk s1 := by
  obtain ⟨l, n, o, d1, d2, d3, d4, d5, d6⟩ := t.dat
  have ho : encs [o] = [] ∧ decs [o] = [] := by
    rcases d5 with rfl | ⟨_, e, rfl⟩ <;> exact ⟨rfl, rfl⟩
  refine ⟨?_, ?_⟩
  · rw [d1, encs_append, encs_append, encs_append, encs_map, ho.1, h.enc, d4, d2]; simp [encs]
  · rw [d1, decs_append, decs_append, decs_append, decs_map', ho.2, h.dec, t.giv]; simp [decs]

theorem data_tryRecv {s s1 : S} (h : DataOk s) (t : TRecvd s s1) : DataOk s1 := by
  obtain ⟨l, l2, o, d1, d2, d3, d4, _⟩ := t.dat
  have ho : encs [o] = [] ∧ decs [o] = [] := by
    rcases d4 with rfl | ⟨_, e, rfl⟩ <;> exact ⟨rfl, rfl⟩
  have h2 : encs l2 = [] ∧ decs l2 = [] := by rcases d3 with rfl | rfl <;> exact ⟨rfl, rfl⟩
  refine ⟨?_, ?_⟩
  · rw [d1]; simp only [encs_append, encs_map', ho.1, h2.1, h.enc, t.acc]; simp [encs]
  · rw [d1]; simp only [decs_append, decs_map, ho.2, h2.2, h.dec, d2]; simp [decs]

theorem data_step {s s1 : S} {a : Act} (o : Own s) (h : DataOk s) (e : s.step a = some s1) : DataOk s1 := by
  cases a with
  | write iov => exact h.ff (cc := False) (ff_write e)
  | recv caps => exact h.ff (cc := False) (ff_recv e)
  | shutdown => exact h.ff (cc := False) (ff_shutdown e)
  | trySend iov => exact data_trySend h (trySend_spec o e)
  | tryRecv n => exact data_tryRecv h (tryRecv_spec o e)
  | asyncRead n => exact data_asyncRead (h.emit _ rfl rfl) e
  | asyncWrite iov => exact data_asyncWrite (h.emit _ rfl rfl) e
  | setHook on => simp only [S.step, Option.some.injEq] at e; subst e; exact h.congr rfl rfl rfl
  | netW f k => exact h.ff (cc := False) (ff_netWDone o e)
  | netR f r => exact h.ff (cc := True) (ff_netRDone o (fun _ => trivial) e)
  | resume f => exact h.ff (cc := False) (ff_resume o e)
  | aW ρ k => exact data_aWDone h e
  | aR ρ r => exact data_aRDone h e

end Verif.Tls
