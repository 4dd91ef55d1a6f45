/-!
# Transition systems for concurrent code

A concurrent program is a (partial) function `step s a`: `a` names the thread that moves and any
choice it makes, and `none` means that this move is not possible in `s`. Each step is one atomic
operation of the modelled code. An execution is any finite sequence of moves, so theorems about all
reachable states are theorems about all interleavings.
-/
namespace Verif.Common

/-- The state after performing the moves `acts`, if they are all possible. -/
def exec {σ α : Type} (step : σ → α → Option σ) (s : σ) : List α → Option σ
  | [] => some s
  | a :: acts =>
    match step s a with
    | none => none
    | some s1 => exec step s1 acts

/-- States reachable from `init` through states that all satisfy `Q`. -/
inductive Reach {σ α : Type} (init : σ → Prop) (step : σ → α → Option σ) (Q : σ → Prop) : σ → Prop
  | init {s} : init s → Q s → Reach init step Q s
  | step {s a s'} : Reach init step Q s → step s a = some s' → Q s' → Reach init step Q s'

/-- States reachable from `init`. -/
abbrev Reachable {σ α : Type} (init : σ → Prop) (step : σ → α → Option σ) : σ → Prop :=
  Reach init step (fun _ => True)

variable {σ α : Type} {init : σ → Prop} {step : σ → α → Option σ} {Q : σ → Prop}

theorem Reach.q {s : σ} (h : Reach init step Q s) : Q s := by
  cases h with
  | init _ hq => exact hq
  | step _ _ hq => exact hq

/-- Induction over executions. -/
theorem Reach.invariant (I : σ → Prop) (h0 : ∀ s, init s → Q s → I s)
    (hs : ∀ s a s', I s → Q s → step s a = some s' → Q s' → I s') {s : σ}
    (h : Reach init step Q s) : I s := by
  induction h with
  | init hi hq => exact h0 _ hi hq
  | step hr hst hq ih => exact hs _ _ _ ih hr.q hst hq

theorem Reachable.invariant (I : σ → Prop) (h0 : ∀ s, init s → I s)
    (hs : ∀ s a s', I s → step s a = some s' → I s') {s : σ}
    (h : Reachable init step s) : I s :=
  Reach.invariant I (fun s hi _ => h0 s hi) (fun s a s' hI _ hst _ => hs s a s' hI hst) h

theorem Reach.mono {Q' : σ → Prop} (hq : ∀ s, Q s → Q' s) {s : σ} (h : Reach init step Q s) :
    Reach init step Q' s := by
  induction h with
  | init hi h => exact .init hi (hq _ h)
  | step _ hst h ih => exact .step ih hst (hq _ h)

/-- Executing a concrete list of moves from a reachable state leads to a reachable state. -/
theorem Reachable.exec {s s' : σ} (h : Reachable init step s) :
    ∀ acts : List α, Common.exec step s acts = some s' → Reachable init step s' := by
  intro acts
  induction acts generalizing s with
  | nil => intro he; simp only [Common.exec, Option.some.injEq] at he; exact he ▸ h
  | cons a acts ih =>
    intro he
    simp only [Common.exec] at he
    cases hs : step s a with
    | none => simp [hs] at he
    | some s1 =>
      simp only [hs] at he
      exact ih (.step h hs trivial) he

theorem exec_append (s : σ) (a b : List α) :
    exec step s (a ++ b) = (exec step s a).bind (fun s1 => exec step s1 b) := by
  induction a generalizing s with
  | nil => simp [exec]
  | cons x a ih =>
    simp only [List.cons_append, exec]
    cases step s x with
    | none => simp
    | some s1 => simp [ih]

/-- Pointwise update of a function. -/
def upd {β : Type} (f : Nat → β) (i : Nat) (v : β) : Nat → β := fun j => if j = i then v else f j

@[simp] theorem upd_same {β : Type} (f : Nat → β) (i : Nat) (v : β) : upd f i v i = v := by simp [upd]

theorem upd_ne {β : Type} (f : Nat → β) {i j : Nat} (v : β) (h : j ≠ i) : upd f i v j = f j := by
  simp [upd, h]

/-- Two positions in the same cell of a ring of size `n` that are less than `n` apart coincide. -/
theorem mod_window {n a b : Nat} (h : a % n = b % n) (h1 : a < b + n) (h2 : b < a + n) : a = b := by
  rcases Nat.lt_trichotomy a b with hlt | heq | hgt
  · exfalso
    have hd : (b - a) % n = 0 := by
      have := Nat.sub_mod_eq_zero_of_mod_eq h.symm
      exact this
    rw [Nat.mod_eq_of_lt (by omega)] at hd
    omega
  · exact heq
  · exfalso
    have hd : (a - b) % n = 0 := Nat.sub_mod_eq_zero_of_mod_eq h
    rw [Nat.mod_eq_of_lt (by omega)] at hd
    omega

theorem get_set {β : Type} {l : List β} {i j : Nat} {x y : β} (h : (l.set i x)[j]? = some y) :
    (j = i ∧ y = x) ∨ (j ≠ i ∧ l[j]? = some y) := by
  rw [List.getElem?_set] at h
  split at h
  · rename_i e
    split at h
    · simp only [Option.some.injEq] at h; exact Or.inl ⟨e.symm, h.symm⟩
    · simp at h
  · rename_i e; exact Or.inr ⟨fun c => e c.symm, h⟩

theorem lt_of_get {β : Type} {l : List β} {i : Nat} {v : β} (h : l[i]? = some v) : i < l.length := by
  rcases Nat.lt_or_ge i l.length with h1 | h1
  · exact h1
  · rw [List.getElem?_eq_none h1] at h; simp at h

end Verif.Common
