import Verif.EventCount.Steps
/-!
Executions of fewer than 2^32 steps satisfy `NoWrap`; used to show that the hypotheses of theorems are met.
-/
namespace Verif.EventCount
open Verif.Common
variable {G L C : Type} {P : Client G L C}

theorem step_ntf {s s' : State G L} {a : Act C} (hs : step P s a = some s') (i : Nat) :
    (s'.ec i).ntf ≤ (s.ec i).ntf + 1 := by
  have hact : ∀ w, ((s.activate w).ec i).ntf = (s.ec i).ntf := by
    intro w; unfold State.activate; repeat' split
    all_goals rfl
  cases a with
  | timer t =>
    simp only [step] at hs
    repeat' split at hs
    all_goals simp only [reduceCtorEq, Option.some.injEq] at hs
    subst hs; simp [State.put]
  | go t c =>
    simp only [step, stepCall, stepEp] at hs
    repeat' split at hs
    all_goals simp only [reduceCtorEq, Option.some.injEq, Option.map_eq_some_iff] at hs
    all_goals first
      | (subst hs; simp only [State.put, State.setEc, hact, upd]; (try split) <;> simp_all; done)
      | (obtain ⟨r, -, rfl⟩ := hs; simp [State.put]; done)

theorem exec_short {I : G → Prop} {J : L → Prop} {s0 : State G L} (h0 : Init I J s0) (hn : s0.th.length < 2 ^ 32) (acts : List (Act C))
    {s : State G L} (he : exec (step P) s0 acts = some s) (hl : acts.length < 2 ^ 32) : Reach (Init I J) (step P) NoWrap s := by
  have key : ∀ acts (s1 : State G L) n, Reach (Init I J) (step P) NoWrap s1 → s1.th.length = s0.th.length → (∀ i, (s1.ec i).ntf ≤ n) →
      exec (step P) s1 acts = some s → n + acts.length < 2 ^ 32 → Reach (Init I J) (step P) NoWrap s := by
    intro acts
    induction acts with
    | nil => intro s1 n h _ _ he _; simp only [exec, Option.some.injEq] at he; exact he ▸ h
    | cons a acts ih =>
      intro s1 n h hlen hb he hl
      simp only [exec] at he
      cases hs : step P s1 a with
      | none => simp [hs] at he
      | some s2 =>
        simp only [hs] at he
        simp only [List.length_cons] at hl
        have hb2 : ∀ i, (s2.ec i).ntf ≤ n + 1 := fun i => by have := step_ntf hs i; have := hb i; omega
        have hlen2 := step_length hs
        refine ih s2 (n + 1) (.step h hs ⟨by omega, ?_⟩) (by omega) hb2 he (by omega)
        intro t x k _ _
        have := hb2 k.ix; omega
  refine key acts s0 0 (.init h0 ⟨hn, ?_⟩) rfl ?_ he (by omega)
  · intro t x k hx hk
    rw [(h0.2.2.1 x (List.mem_of_getElem? hx)).2.2] at hk; simp at hk
  · intro i; rw [h0.2.1 i]; exact Nat.le_refl 0

/-- `n` fresh threads in control state `l`. -/
def start0 (g : G) (l : L) (n : Nat) : State G L :=
  { g, ec := fun _ => {}, th := List.replicate n { cl := l } }

/-- A concrete execution ending in a state that passes a check. -/
theorem run_ex {I : G → Prop} {J : L → Prop} {g : G} {l : L} {R : State G L → Prop} (hg : I g) (hl : J l) (n : Nat) (acts : List (Act C))
    (chk : State G L → Bool) (hP : ∀ s, chk s = true → R s)
    (he : (match exec (step P) (start0 g l n) acts with | some s => chk s | none => false) = true)
    (hn : n < 2 ^ 32 := by decide) (ha : acts.length < 2 ^ 32 := by decide) :
    ∃ s, Reach (Init I J) (step P) NoWrap s ∧ R s := by
  split at he
  · rename_i s hs
    refine ⟨s, exec_short ⟨hg, fun _ => rfl, ?_, rfl, rfl⟩ (by simpa [start0] using hn) acts hs ha, hP s he⟩
    intro x hx
    simp only [start0, List.mem_replicate] at hx
    rw [hx.2]; exact ⟨hl, rfl, rfl⟩
  · simp at he

/-- `exec`, with a check at every state. -/
def execChk (P : Client G L C) (d : State G L → Bool) (s : State G L) : List (Act C) → Option (State G L)
  | [] => if d s then some s else none
  | a :: as => if d s then match step P s a with
      | some s' => execChk P d s' as
      | none => none
    else none

/-- The same for executions that obey a discipline `D` all the way. -/
theorem run_ex_q {I : G → Prop} {J : L → Prop} {g : G} {l : L} {R D : State G L → Prop} (hg : I g) (hl : J l) (n : Nat) (acts : List (Act C))
    (d : State G L → Bool) (hD : ∀ s, d s = true → D s)
    (chk : State G L → Bool) (hP : ∀ s, chk s = true → R s)
    (he : (match execChk P d (start0 g l n) acts with | some s => chk s | none => false) = true)
    (hn : n < 2 ^ 32 := by decide) (ha : acts.length < 2 ^ 32 := by decide) :
    ∃ s, Reach (Init I J) (step P) (fun s => NoWrap s ∧ D s) s ∧ R s := by
  have key : ∀ acts (s1 : State G L) n0 s, (d s1 = true → Reach (Init I J) (step P) (fun s => NoWrap s ∧ D s) s1) → s1.th.length = n →
      (∀ i, (s1.ec i).ntf ≤ n0) →
      execChk P d s1 acts = some s → n0 + acts.length < 2 ^ 32 → Reach (Init I J) (step P) (fun s => NoWrap s ∧ D s) s := by
    intro acts
    induction acts with
    | nil =>
      intro s1 n0 s h _ _ he _
      simp only [execChk] at he
      split at he
      · simp only [Option.some.injEq] at he; subst he; exact h ‹_›
      · simp at he
    | cons a acts ih =>
      intro s1 n0 s h hlen hb he hl
      simp only [execChk] at he
      split at he
      · have h := h ‹_›
        cases hs : step P s1 a with
        | none => simp [hs] at he
        | some s2 =>
          simp only [hs] at he
          simp only [List.length_cons] at hl
          have hb2 : ∀ i, (s2.ec i).ntf ≤ n0 + 1 := fun i => by have := step_ntf hs i; have := hb i; omega
          have hlen2 := step_length hs
          refine ih s2 (n0 + 1) s (fun hd => .step h hs ⟨⟨by omega, ?_⟩, hD _ hd⟩) (by omega) hb2 he (by omega)
          intro t x k _ _
          have := hb2 k.ix; omega
      · simp at he
  split at he
  · rename_i s hs
    refine ⟨s, key acts (start0 g l n) 0 s (fun hd => .init ⟨hg, fun _ => rfl, ?_, rfl, rfl⟩ ⟨⟨?_, ?_⟩, hD _ hd⟩) (by simp [start0]) (fun _ => Nat.le_refl 0) hs (by omega), hP s he⟩
    · intro x hx
      simp only [start0, List.mem_replicate] at hx
      rw [hx.2]; exact ⟨hl, rfl, rfl⟩
    · simpa [start0] using hn
    · intro t x k hx hk
      have := List.mem_of_getElem? hx
      simp only [start0, List.mem_replicate] at this
      rw [this.2] at hk; simp at hk
  · simp at he

/-- At most one thread is in a state that satisfies `p`. -/
def oneB (p : L → Bool) (s : State G L) : Bool :=
  (List.range s.th.length).all fun i => (List.range s.th.length).all fun j =>
    i == j || !((s.th[i]?).any (fun x => p x.cl) && (s.th[j]?).any (fun x => p x.cl))

theorem one_of {p : L → Bool} {s : State G L} (h : oneB p s = true) {i j : Nat} {x y : Th L} (hi : s.th[i]? = some x)
    (hj : s.th[j]? = some y) (hx : p x.cl = true) (hy : p y.cl = true) : i = j := by
  have hi' := (List.getElem?_eq_some_iff.1 hi).1
  have hj' := (List.getElem?_eq_some_iff.1 hj).1
  have := List.all_eq_true.1 (List.all_eq_true.1 h i (by simpa using hi')) j (by simpa using hj')
  simpa [hi, hj, hx, hy] using this

end Verif.EventCount
