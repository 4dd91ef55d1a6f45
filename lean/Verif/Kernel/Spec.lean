import Verif.Kernel.Model
/-!
# Kernel releases and when features appeared

The words of property C129.
-/
namespace Verif.Kernel

/-- A number in decimal. -/
def dec (n : Nat) : Str := if n < 10 then [48 + n] else dec (n / 10) ++ [48 + n % 10]
decreasing_by omega

/-- A release string as kernels have them: three numbers and anything that does not continue the third. -/
def release (a b c : Nat) (rest : Str) : Str := dec a ++ 46 :: (dec b ++ 46 :: (dec c ++ rest))

/-- Does not begin with a digit. -/
def Ends (rest : Str) : Prop := ∀ x, rest.head? = some x → x < 48 ∨ 57 < x

/-- Version `a.b` is `x.y` or newer. -/
def Since (x y a b : Nat) : Prop := x < a ∨ (x = a ∧ y ≤ b)

/-- The first kernel with a feature, from the manual pages io_uring_setup(2), io_uring_register(2) and
io_uring_enter(2). Registered descriptors with -1 entries are since 5.5. -/
def firstWith : Feature → Nat × Nat
  | .submitAll => (5, 18)
  | .coopTaskrun => (5, 19)
  | .taskrunFlag => (5, 19)
  | .singleIssuer => (6, 0)
  | .deferTaskrun => (6, 1)
  | .pollFirst => (5, 19)
  | .bufRing => (5, 19)
  | .directFds => (5, 5)
  | .incrementalBufRing => (6, 12)
  | .ringFd => (5, 18)

/-- The kernel refuses these combinations of setup flags. -/
def Coherent (l : List Feature) : Prop :=
  (.deferTaskrun ∈ l → .singleIssuer ∈ l) ∧ (.taskrunFlag ∈ l → .coopTaskrun ∈ l ∨ .deferTaskrun ∈ l)

end Verif.Kernel
