import Verif.FiberHandle.Model
/-!
# Vocabulary of the handle properties
-/
namespace Verif.FiberHandle

abbrev Ok : S → Prop := Verif.Common.Reachable (· = init) step

/-- Object `h` holds fiber `f`. -/
def Holds (s : S) (h f : Nat) : Prop := s.obj h = some (some f)

/-- How often `f` was joined or detached. -/
def times (s : S) (f : Nat) : Nat := (s.ended.filter fun e => e.1 = f).length

/-- Misuse: joining without a fiber, joining oneself, assigning to a handle that holds a fiber, destroying one. -/
def Misuse (s : S) : Act → Prop
  | .join me h => s.obj h = some none ∨ Holds s h me
  | .joinIfNeeded me h => Holds s h me
  | .assign h g => (∃ f, Holds s h f) ∧ ∃ o, s.obj g = some o
  | .destroy h => ∃ f, Holds s h f
  | _ => False

end Verif.FiberHandle
