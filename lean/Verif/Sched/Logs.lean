import Verif.Sched.Lemmas
import Verif.Sched.Spec

/-! # The history of a scheduler -/
namespace Verif.Sched

open Verif.Common

/-! ## The ready queues as the history tells them -/

def qStep (bg : Bool) (q : List Nat) : Ev → List Nat
  | .ready f b front => if b = bg then (if front then f :: q else q ++ [f]) else q
  | .run f => q.erase f
  | _ => q

def queueOf (bg : Bool) (log : List Ev) : List Nat := log.foldl (qStep bg) []

theorem queueOf_snoc (bg : Bool) (l : List Ev) (e : Ev) :
    queueOf bg (l ++ [e]) = qStep bg (queueOf bg l) e := by simp [queueOf]

def okQ (log : List Ev) : Ev → Prop
  | .ready f _ _ => ∀ b, f ∉ queueOf b log
  | .run f => f = 0 ∨ ∀ b, f ∈ queueOf b log → (queueOf b log).head? = some f
  | _ => True

/-- Every prefix of the history is followed by an event that fits it. -/
def WF (ok : List Ev → Ev → Prop) (log : List Ev) : Prop :=
  ∀ pre e post, log = pre ++ e :: post → ok pre e

theorem WF_nil (ok) : WF ok [] := by intro pre e post h; simp at h

theorem WF_snoc {ok : List Ev → Ev → Prop} {l : List Ev} {e : Ev} (h : WF ok l) (he : ok l e) :
    WF ok (l ++ [e]) := by
  intro pre x post hl
  rcases List.eq_nil_or_concat post with rfl | ⟨post', y, rfl⟩
  · have := List.append_inj' hl (by simp)
    obtain ⟨h1, h2⟩ := this
    simp only [List.cons.injEq, and_true] at h2
    exact h1 ▸ h2 ▸ he
  · rw [List.concat_eq_append, ← List.cons_append, ← List.append_assoc] at hl
    have := List.append_inj' hl (by simp)
    exact h _ _ _ this.1

/-- The queues are those of the history, and the history is well-formed. -/
structure LI (log : List Ev) (rn rb : List Nat) : Prop where
  qn : queueOf false log = rn
  qb : queueOf true log = rb
  wf : WF okQ log

theorem LI.skip {log rn rb} (h : LI log rn rb) (e : Ev) (he : (∀ f b c, e ≠ .ready f b c) ∧ ∀ f, e ≠ .run f) :
    LI (log ++ [e]) rn rb := by
  have hq : ∀ b, queueOf b (log ++ [e]) = queueOf b log := by
    intro b; rw [queueOf_snoc]; cases e <;> simp_all [qStep]
  refine ⟨by rw [hq, h.qn], by rw [hq, h.qb], WF_snoc h.wf ?_⟩
  cases e <;> simp_all [okQ]

theorem LI.ready {log rn rb} (h : LI log rn rb) (f : Nat) (b front : Bool) (h1 : f ∉ rn) (h2 : f ∉ rb) :
    LI (log ++ [.ready f b front])
      (if b then rn else if front then f :: rn else rn ++ [f])
      (if b then (if front then f :: rb else rb ++ [f]) else rb) := by
  refine ⟨?_, ?_, WF_snoc h.wf ?_⟩
  · rw [queueOf_snoc, h.qn]; cases b <;> simp [qStep]
  · rw [queueOf_snoc, h.qb]; cases b <;> simp [qStep]
  · intro c; cases c
    · rw [h.qn]; exact h1
    · rw [h.qb]; exact h2

theorem LI.runN {log rb} {f : Nat} {l : List Nat} (h : LI log (f :: l) rb) (hb : f ∉ rb) :
    LI (log ++ [.run f]) l rb := by
  refine ⟨?_, ?_, WF_snoc h.wf (Or.inr ?_)⟩
  · rw [queueOf_snoc, h.qn]; simp [qStep]
  · rw [queueOf_snoc, h.qb]; exact List.erase_of_not_mem hb
  · intro c hc
    cases c
    · rw [h.qn]; simp
    · rw [h.qb] at hc; exact absurd hc hb

theorem LI.runB {log rn} {f : Nat} {l : List Nat} (h : LI log rn (f :: l)) (hn : f ∉ rn) :
    LI (log ++ [.run f]) rn l := by
  refine ⟨?_, ?_, WF_snoc h.wf (Or.inr ?_)⟩
  · rw [queueOf_snoc, h.qn]; exact List.erase_of_not_mem hn
  · rw [queueOf_snoc, h.qb]; simp [qStep]
  · intro c hc
    cases c
    · rw [h.qn] at hc; exact absurd hc hn
    · rw [h.qb]; simp

theorem LI.runNew {log rn rb} {f : Nat} (h : LI log rn rb) (hn : f ∉ rn) (hb : f ∉ rb) :
    LI (log ++ [.run f]) rn rb := by
  refine ⟨?_, ?_, WF_snoc h.wf (Or.inr ?_)⟩
  · rw [queueOf_snoc, h.qn]; exact List.erase_of_not_mem hn
  · rw [queueOf_snoc, h.qb]; exact List.erase_of_not_mem hb
  · intro c hc
    cases c
    · rw [h.qn] at hc; exact absurd hc hn
    · rw [h.qb] at hc; exact absurd hc hb

theorem LI.run0 {log rn rb} (h : LI log rn rb) (hb : 0 ∉ rb) :
    LI (log ++ [.run 0]) (rn.erase 0) rb := by
  refine ⟨?_, ?_, WF_snoc h.wf (Or.inl rfl)⟩
  · rw [queueOf_snoc, h.qn]; rfl
  · rw [queueOf_snoc, h.qb]; exact List.erase_of_not_mem hb

def SLI (s : St) : Prop := LI s.log s.rn s.rb

theorem bg_eq (p : Prio) {α} (x y : α) :
    (if p = .background then x else y) = if (p == .background) = true then x else y := by
  cases p <;> simp

theorem addReady_LI (s : St) (f : Nat) (b : Bool) (h : SLI s) (hl : linked s f = false) :
    SLI (addReady s f b) := by
  have h1 := linked_iff s f
  rw [addReady_eq s f b hl]
  unfold SLI
  simp only [bg_eq]
  exact LI.ready h f _ b (by grind) (by grind)

theorem wake_LI (s : St) (f : Nat) (h : SLI s) : SLI (wake s f) := by
  unfold wake
  split
  · exact h
  · rename_i hl; exact addReady_LI s f _ h (by simpa using hl)

theorem processRemote_LI (a : Option Nat) (s : St) (h : SLI s) (hn : s.remote.Nodup) :
    SLI (processRemote a s) := by
  refine (processRemote_induct a SLI ?_ s h hn).1
  intro s f h _ _
  unfold pull1
  dsimp only
  split
  · exact h
  · exact wake_LI _ f h

theorem fire1_LI (s : St) (f : Nat) (h : SLI s) (hl : linked s f = false) : SLI (fire1 s f) := by
  have h1 := linked_iff s f
  rw [fire1_eq s f hl]
  unfold SLI
  simp only [bg_eq]
  have h2 := LI.ready (LI.skip h (.fired f s.now) (by simp)) f (s.prio f == .background) false
    (by grind) (by grind)
  simpa using h2

theorem processSleep_LI (s : St) (h : SLI s) (hi : Inv s) : SLI (processSleep s) := by
  have := processSleep_induct (fun s => Inv s ∧ SLI s) (fun s f h hf _ => by
    refine ⟨fire1_inv s f h.1 hf, fire1_LI s f h.2 ?_⟩
    have h1 := linked_iff s f
    have h2 := h.1.nS f
    have h3 := h.1.bS f
    have h4 := h.1.lT f
    have h5 := h.1.lS f
    grind) s ⟨hi, h⟩ hi.ndS
  exact this.2

theorem preempt_LI (s : St) (h : SLI s) (hi : Inv (preempt s)) (h0 : 0 ∉ s.rb)
    (hnb : ∀ f ∈ s.rn, f ∉ s.rb) : SLI (preempt s) := by
  unfold preempt at *
  split at hi
  · have h2 : 0 ∉ s.rn := hi.aN
    exact LI.runNew h h2 h0
  · unfold switchNext at *
    split at hi
    · exact absurd hi.nbad (by simp)
    · rename_i f l hl
      unfold SLI at h
      rw [hl] at h
      exact LI.runN h (hnb f (by simp [hl]))

theorem step_LI (s s' : St) (a : Act) (h : Inv s) (hL : SLI s) (hal : Allowed s a)
    (hs : step s a = some s') : SLI s' := by
  have hi' := step_inv s s' a h hal hs
  unfold step at hs
  rw [if_neg (by rw [h.nbad, h.ncrash]; simp)] at hs
  have h0b : 0 ∉ s.rb := fun c => h.p0 (h.pB 0 c)
  have hla := act_linked s h
  cases a with
  | yield =>
    simp only [stepUser, Option.ite_none_right_eq_some, Option.some.injEq, user_iff] at hs
    obtain ⟨hu, rfl⟩ := hs
    have := addReady_LI s s.act false hL hla
    have hnb := h.nB
    have haN := h.aN
    have haB := h.aB
    refine preempt_LI _ this hi' ?_ ?_
    · rw [addReady_eq _ _ _ hla]; dsimp only; grind
    · rw [addReady_eq _ _ _ hla]; dsimp only; grind
  | yieldKeep =>
    simp only [stepUser, Option.ite_none_right_eq_some, Option.some.injEq] at hs
    obtain ⟨hu, rfl⟩ := hs
    exact hL
  | yieldSleep t =>
    simp only [stepUser, Option.ite_none_right_eq_some, Option.some.injEq, Bool.and_eq_true,
      user_iff] at hs
    obtain ⟨hu, rfl⟩ := hs
    exact preempt_LI _ hL hi' h0b h.nB
  | suspend =>
    simp only [stepUser, Option.ite_none_right_eq_some, Option.some.injEq, user_iff] at hs
    obtain ⟨hu, rfl⟩ := hs
    exact preempt_LI _ hL hi' h0b h.nB
  | waitUntil d =>
    simp only [stepUser, Option.ite_none_right_eq_some, Option.some.injEq, Bool.and_eq_true,
      user_iff] at hs
    obtain ⟨hu, rfl⟩ := hs
    exact preempt_LI _ (LI.skip hL _ (by simp)) hi' h0b h.nB
  | finish =>
    simp only [stepUser, Option.ite_none_right_eq_some, Option.some.injEq] at hs
    obtain ⟨hu, rfl⟩ := hs
    have key : ∀ (x : St) (l : List Ev), SLI x → (l = [] ∨ ∃ f b, l = [Ev.ret f b]) →
        LI (x.log ++ l) x.rn x.rb := by
      rintro x l hx (rfl | ⟨f, b, rfl⟩)
      · simpa using (show LI x.log x.rn x.rb from hx)
      · exact LI.skip hx _ (by simp)
    refine key _ _ ?_ ?_
    · split
      · exact processRemote_LI _ s hL h.ndR
      · exact hL
    · split
      · exact Or.inr ⟨_, _, rfl⟩
      · exact Or.inl rfl
  | terminate =>
    simp only [stepUser, Option.ite_none_right_eq_some, Option.some.injEq, Bool.and_eq_true,
      user_iff] at hs
    obtain ⟨hu, rfl⟩ := hs
    exact preempt_LI _ hL hi' h0b h.nB
  | migrate =>
    simp only [stepUser, Option.ite_none_right_eq_some, Bool.and_eq_true, user_iff] at hs
    obtain ⟨hu, hs⟩ := hs
    have hl : linked s 0 = true := (linked_iff s 0).2 (Or.inl (h.disp hu.1.1 hal))
    rw [if_pos hl] at hs
    cases hs
    exact LI.run0 hL h0b
  | post f p =>
    simp only [stepBoth, Option.ite_none_right_eq_some, Option.some.injEq] at hs
    obtain ⟨hu, rfl⟩ := hs
    refine addReady_LI _ f _ hL ?_
    have h1 := linked_iff (create s f p) f
    have h3 := h.lN f
    have h4 := h.lB f
    have h5 := h.lT f
    unfold create at *
    grind
  | dispatch f p =>
    simp only [stepBoth, Option.ite_none_right_eq_some, Option.some.injEq] at hs
    obtain ⟨hu, rfl⟩ := hs
    have h1 := addReady_LI (create s f p) s.act false hL hla
    have hlk : linked (create s f p) s.act = false := hla
    change Inv (switchTo (addReady (create s f p) s.act false) f) at hi'
    change SLI (switchTo (addReady (create s f p) s.act false) f)
    rw [addReady_eq _ _ _ hlk] at h1 hi' ⊢
    exact LI.runNew h1 hi'.aN hi'.aB
  | notify f =>
    simp only [stepBoth, Option.ite_none_right_eq_some, Option.some.injEq, user_iff] at hs
    obtain ⟨hu, rfl⟩ := hs
    exact wake_LI _ f (LI.skip hL _ (by simp))
  | remoteReady =>
    simp only [stepDisp, Option.ite_none_right_eq_some, Option.some.injEq] at hs
    obtain ⟨hu, rfl⟩ := hs
    exact processRemote_LI _ s hL h.ndR
  | sleepers =>
    simp only [stepDisp, Option.ite_none_right_eq_some, Option.some.injEq] at hs
    obtain ⟨hu, rfl⟩ := hs
    exact processSleep_LI s hL h
  | runNormal =>
    simp only [stepDisp, Option.ite_none_right_eq_some] at hs
    obtain ⟨hu, hs⟩ := hs
    split at hs
    · cases hs
    · rename_i f l hl
      cases hs
      have haN := h.aN
      rw [hu] at haN hla
      have hlk : linked { s with rn := l } 0 = false := by
        have h1 := linked_iff s 0
        have h2 := linked_iff { s with rn := l } 0
        grind
      have h1 := LI.ready hL 0 false false haN h0b
      rw [hl] at h1
      rw [addReady_eq _ _ _ hlk]
      have hp0 : (s.prio 0 == Prio.background) = false := by simpa using h.p0
      unfold SLI switchTo
      dsimp only
      rw [hp0, if_neg h.p0, if_neg h.p0]
      exact LI.runN h1 (h.nB f (by simp [hl]))
  | runBackground =>
    simp only [stepDisp, Option.ite_none_right_eq_some] at hs
    obtain ⟨hu, hs⟩ := hs
    split at hs
    · cases hs
    · rename_i f l hl
      cases hs
      unfold SLI at hL
      rw [hl] at hL
      exact LI.runB hL (fun c => h.nB f c (by simp [hl]))
  | destroy =>
    simp only [stepDisp, Option.ite_none_right_eq_some, Option.some.injEq] at hs
    obtain ⟨hu, rfl⟩ := hs
    exact hL
  | attach f p =>
    simp only [stepDisp, Option.ite_none_right_eq_some, Option.some.injEq] at hs
    obtain ⟨hu, rfl⟩ := hs
    refine addReady_LI _ f _ hL ?_
    have h1 := linked_iff (create s f p) f
    have h3 := h.lN f
    have h4 := h.lB f
    have h5 := h.lT f
    unfold create at *
    grind
  | notifyRemote f =>
    simp only [stepDisp, Option.ite_none_right_eq_some, Option.some.injEq] at hs
    obtain ⟨hu, rfl⟩ := hs
    exact LI.skip hL _ (by simp)
  | tick t =>
    simp only [stepDisp, Option.ite_none_right_eq_some, Option.some.injEq] at hs
    obtain ⟨hu, rfl⟩ := hs
    exact hL

theorem reach_LI (s : St) (h : ReachA s) : SLI s := by
  induction h with
  | init hi =>
    obtain ⟨h1, h2, h3, h4, h5, h6, h7, h8, h9, h10, h11, h12, h13, h14, h15⟩ := hi
    unfold SLI
    rw [h15, h4, h5]
    exact LI.ready (log := []) (rn := []) (rb := []) ⟨rfl, rfl, WF_nil _⟩ 0 false false (by simp) (by simp)
  | step hr ha hs ih => exact step_LI _ _ _ (reach_inv _ hr) ih ha hs

/-! ## First in, first out -/

theorem mem_qStep {bg : Bool} {q : List Nat} {f : Nat} {e : Ev} (h : f ∈ q) (he : e ≠ .run f) :
    f ∈ qStep bg q e := by
  cases e <;> simp only [qStep] <;> try exact h
  · split
    · split <;> simp [h]
    · exact h
  · rename_i g
    have : f ≠ g := by rintro rfl; exact he rfl
    exact (List.mem_erase_of_ne this).2 h

theorem mem_queue_mid {bg : Bool} {f : Nat} (pre mid : List Ev) (h : f ∈ queueOf bg pre)
    (he : Ev.run f ∉ mid) : f ∈ queueOf bg (pre ++ mid) := by
  induction mid generalizing pre with
  | nil => simpa using h
  | cons e mid ih =>
    have := ih (pre ++ [e]) (by
      rw [queueOf_snoc]; exact mem_qStep h (fun c => he (by simp [c]))) (fun c => he (by simp [c]))
    simpa using this

theorem WF.prefix {ok : List Ev → Ev → Prop} {a b : List Ev} (h : WF ok (a ++ b)) : WF ok a := by
  intro pre e post hl
  exact h pre e (post ++ b) (by simp [hl])

/-- `f` is ahead of `g`. -/
def ahead (f g : Nat) (q : List Nat) : Prop := ∃ a b, q = a ++ f :: b ∧ g ∉ a ∧ g ∈ b

theorem ahead_step {bg : Bool} {f g : Nat} {pre : List Ev} {e : Ev} (hfg : f ≠ g)
    (h : ahead f g (queueOf bg pre)) (hok : okQ pre e) (hf : e ≠ .run f) (hg : e ≠ .run g) :
    ahead f g (queueOf bg (pre ++ [e])) := by
  rw [queueOf_snoc]
  obtain ⟨a, b, hq, h1, h2⟩ := h
  cases e with
  | ready x c front =>
    simp only [qStep]
    split
    · have hx := hok bg
      rw [hq] at hx ⊢
      split
      · refine ⟨x :: a, b, by simp, ?_, h2⟩
        simp only [List.mem_cons, not_or]
        exact ⟨fun c => hx (by simp [← c, h2]), h1⟩
      · exact ⟨a, b ++ [x], by simp, h1, by simp [h2]⟩
    · exact ⟨a, b, hq, h1, h2⟩
  | run x =>
    simp only [qStep, hq]
    have hxf : x ≠ f := fun c => hf (by rw [c])
    have hxg : x ≠ g := fun c => hg (by rw [c])
    by_cases hx : x ∈ a
    · refine ⟨a.erase x, b, List.erase_append_left _ hx, fun c => h1 (List.mem_of_mem_erase c), h2⟩
    · refine ⟨a, b.erase x, ?_, h1, (List.mem_erase_of_ne hxg.symm).2 h2⟩
      rw [List.erase_append_right _ hx, List.erase_cons_tail (by simpa using hxf.symm)]
  | wait _ _ => exact ⟨a, b, hq, h1, h2⟩
  | fired _ _ => exact ⟨a, b, hq, h1, h2⟩
  | notify _ _ => exact ⟨a, b, hq, h1, h2⟩
  | ret _ _ => exact ⟨a, b, hq, h1, h2⟩

theorem ahead_mid {bg : Bool} {f g : Nat} (hfg : f ≠ g) (pre mid : List Ev)
    (h : ahead f g (queueOf bg pre)) (hwf : WF okQ (pre ++ mid)) (hf : Ev.run f ∉ mid)
    (hg : Ev.run g ∉ mid) : ahead f g (queueOf bg (pre ++ mid)) := by
  induction mid generalizing pre with
  | nil => simpa using h
  | cons e mid ih =>
    have hok := hwf pre e mid rfl
    have := ih (pre ++ [e])
      (ahead_step hfg h hok (fun c => hf (by simp [c])) (fun c => hg (by simp [c])))
      (by simpa using hwf) (fun c => hf (by simp [c])) (fun c => hg (by simp [c]))
    simpa using this

theorem fifo_log (bg fr : Bool) (f g : Nat) (pre mid mid' post : List Ev) (hg0 : g ≠ 0)
    (hwf : WF okQ (pre ++ .ready f bg fr :: mid ++ .ready g bg false :: mid' ++ .run g :: post))
    (hfg : f ≠ g) (hf1 : Ev.run f ∉ mid) (hf2 : Ev.run f ∉ mid') : Ev.run g ∈ mid' := by
  refine Classical.byContradiction fun hg => ?_
  have hfq : f ∈ queueOf bg (pre ++ [.ready f bg fr] ++ mid) := by
    refine mem_queue_mid _ _ ?_ hf1
    rw [queueOf_snoc]
    simp only [qStep, if_true]
    split <;> simp
  have e1 : pre ++ .ready f bg fr :: mid ++ .ready g bg false :: mid' ++ .run g :: post =
      (pre ++ [.ready f bg fr] ++ mid) ++ .ready g bg false :: (mid' ++ .run g :: post) := by simp
  have hok : okQ _ _ := hwf _ _ _ e1
  have hgq := hok bg
  have ha : ahead f g (queueOf bg ((pre ++ [.ready f bg fr] ++ mid) ++ [.ready g bg false])) := by
    rw [queueOf_snoc]
    simp only [qStep, if_true, Bool.false_eq_true, if_false]
    obtain ⟨a, b, hab⟩ := List.append_of_mem hfq
    refine ⟨a, b ++ [g], by rw [hab]; simp, ?_, by simp⟩
    intro c; exact hgq (by rw [hab]; simp [c])
  have hwf' : WF okQ (((pre ++ [.ready f bg fr] ++ mid) ++ [.ready g bg false]) ++ mid') := by
    refine WF.prefix (b := .run g :: post) ?_
    simpa using hwf
  have ha2 := ahead_mid hfg _ mid' ha hwf' hf2 hg
  have hok2 := hwf (((pre ++ [.ready f bg fr] ++ mid) ++ [.ready g bg false]) ++ mid') (.run g) post
    (by simp)
  obtain ⟨a, b, hq, h1, h2⟩ := ha2
  rcases hok2 with hok2 | hok2
  · exact hg0 hok2
  · have := hok2 bg (by rw [hq]; simp [h2])
    rw [hq] at this
    cases a with
    | nil => simp at this; exact hfg this
    | cons x a => simp at this; exact h1 (by simp [this])

end Verif.Sched
