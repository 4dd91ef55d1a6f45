import Verif.Init.Model
/-!
# Vocabulary of the initializer properties
-/
namespace Verif.Init
open Common

/-- The states of a program with these registrations and `n` threads, under all interleavings. -/
def Reaches (regs : List Node) (n : Nat) (s : S) : Prop := Reachable (fun t => t = init n) (step (globalList regs)) s

/-- The initializers of the program, last registered first. -/
def inits (regs : List Node) : List Nat := (regs.reverse.filter (fun n => n.isCtor)).map Node.id

/-- The destructors of the program, last registered first. -/
def dtors (regs : List Node) : List Nat := (regs.reverse.filter (fun n => !n.isCtor)).map Node.id

/-- Thread `i` runs alone from `s` until its constructor or destructor has returned, which is the state `s'`. -/
def Whole (regs : List Node) (s : S) (i : Nat) (s' : S) : Prop :=
  ∃ k, exec (step (globalList regs)) s (List.replicate (k + 1) i) = some s' ∧ (s'.ths[i]? = some .made ∨ s'.ths[i]? = some .gone) ∧
    ∀ j, 0 < j → j ≤ k → ∀ t, exec (step (globalList regs)) s (List.replicate j i) = some t → ¬ (t.ths[i]? = some .made ∨ t.ths[i]? = some .gone)

/-- The states of a program that constructs and destroys its guards one at a time: each constructor or destructor returns before the
next begins. -/
inductive Serial (regs : List Node) (n : Nat) : S → Prop
  | init : Serial regs n (init n)
  | call {s i s'} : Serial regs n s → Whole regs s i s' → Serial regs n s'

/-- What is logged after `k` times from the first guard to the last, and then, if `open_`, a first guard again. -/
def expected (regs : List Node) (k : Nat) (open_ : Bool) : List Nat :=
  (List.replicate k (inits regs ++ dtors regs)).flatten ++ if open_ then inits regs else []

/-- Some guard exists: its constructor has returned and its destructor has not been called. -/
def Held (s : S) : Prop := ∃ i : Nat, s.ths[i]? = some .made

end Verif.Init
