/-!
# The kernel's version and what the io_uring proactor asks of it

`base::sys::GetKernelVersion` (`/repo/base/proc_util.cc` 38-46) and the part of `UringProactor::Init`
(`/repo/util/fibers/uring_proactor.cc` 158-262) that decides from the version which setup flags and which
features are used. Characters are their codes. The probe for MSG_RING and the feature bits that the kernel
itself returns are not modelled: they are the kernel's own answer.
-/
namespace Verif.Kernel

abbrev Str := List Nat

def isDigit (c : Nat) : Bool := decide (48 ≤ c ∧ c ≤ 57)
def isSpace (c : Nat) : Bool := decide (c = 32 ∨ (9 ≤ c ∧ c ≤ 13))

/-- The number that decimal digits denote. -/
def value (ds : Str) : Nat := ds.foldl (fun a c => 10 * a + (c - 48)) 0

/-- `strtoul` and the store into an `unsigned`, as `%u` does (C library): it saturates at 2^64 - 1, and a minus
sign negates in 64 bits. -/
def convert (neg : Bool) (n : Nat) : Nat :=
  (if n ≥ 2 ^ 64 then 2 ^ 64 - 1 else if neg then 2 ^ 64 - n else n) % 2 ^ 32

/-- An optional sign. -/
def sign : Str → Bool × Str
  | 43 :: r => (false, r)
  | 45 :: r => (true, r)
  | s => (false, s)

/-- `%u` of `sscanf` (C library). -/
def readU (s : Str) : Option (Nat × Str) :=
  let b := sign (s.dropWhile isSpace)
  if b.2.takeWhile isDigit = [] then none
  else some (convert b.1 (value (b.2.takeWhile isDigit)), b.2.dropWhile isDigit)

/-- A literal character of the format. -/
def lit (c : Nat) : Str → Option Str
  | [] => none
  | d :: r => if d = c then some r else none

/-- `sscanf(s, "%u" c1 "%u" c2 …)`: the numbers it stored. -/
def scan : List Nat → Str → List Nat
  | [], s =>
    match readU s with
    | none => []
    | some (n, _) => [n]
  | c :: cs, s =>
    match readU s with
    | none => []
    | some (n, r) =>
      match lit c r with
      | none => [n]
      | some r => n :: scan cs r

/-- `KernelVersion` (proc_util.h 13-18); `patch` may be left unset. -/
structure Ver where
  kernel : Nat
  major : Nat
  minor : Nat
  patch : Option Nat
deriving DecidableEq, Repr

/-- `GetKernelVersion` (proc_util.cc 38-46); `none`: the check of line 45 failed. -/
def getVersion (release : Str) : Option Ver :=
  match scan [46, 46, 45] release with
  | [a, b, c] => some ⟨a, b, c, none⟩
  | [a, b, c, d] => some ⟨a, b, c, some d⟩
  | _ => none

/-- What the proactor uses of io_uring. -/
inductive Feature
  | submitAll | coopTaskrun | taskrunFlag | singleIssuer | deferTaskrun
  | pollFirst | bufRing | directFds | incrementalBufRing | ringFd
deriving DecidableEq, Repr

/-- uring_proactor.cc 182-207 and 247: what a version gets. -/
def features (v : Ver) : List Feature :=
  (if v.kernel > 5 ∨ (v.kernel = 5 ∧ v.major ≥ 19) then [.submitAll, .pollFirst, .bufRing, .directFds] else []) ++
  (if v.kernel > 6 ∨ (v.kernel = 6 ∧ v.major ≥ 1) then [.deferTaskrun, .coopTaskrun, .taskrunFlag, .singleIssuer] else []) ++
  (if v.kernel > 6 ∨ (v.kernel = 6 ∧ v.major ≥ 14) then [.incrementalBufRing] else []) ++
  (if v.kernel ≥ 6 then [.ringFd] else [])

/-- `ring_size - 1` for a `size_t`. -/
def pred64 (n : Nat) : Nat := (n + 2 ^ 64 - 1) % 2 ^ 64

/-- `Init` (uring_proactor.cc 158-262) with a ring of `size`: what it uses; `none`: a check failed (lines
160-162, 169). The setup call and the registrations are taken to succeed. -/
def initRing (size : Nat) (again : Bool) (release : Str) : Option (List Feature) :=
  if size &&& pred64 size ≠ 0 then none
  else if size < 8 then none
  else if again then none
  else
    match getVersion release with
    | none => none
    | some v => if v.kernel > 5 ∨ (v.kernel = 5 ∧ v.major ≥ 8) then some (features v) else none

end Verif.Kernel
