import Verif.Text.Str
/-!
# Model of `ProgramAbsoluteFileName` and `ProgramBaseName` (base/logging.cc:30-71)

Only the Linux branch. Strings are lists of bytes. The outer `none` is a failed `CHECK`.
-/
namespace Verif.ProgName
open Verif.Text (Str lit)

/-- base/logging.cc:26-28, `kDeletedSuffix`. -/
def suffix : Str := lit " (deleted)"

/-- base/logging.cc:31 and :49: `readlink` into a buffer of 2048 characters. A longer target is cut
and nothing says so. -/
def readlink (link : Str) : Str := link.take 2048

/-- base/logging.cc:30-63. `link` is the target of `/proc/self/exe`. -/
def absName (link : Str) : Option Str :=
  let res := readlink link
  if 0 < res.length then
    if suffix.length < res.length then
      if res.drop (res.length - suffix.length) = suffix then some (res.take (res.length - suffix.length))
      else some res
    else some res
  else none

/-- `string::rfind` of one character: its last position. -/
def rfind (c : UInt8) : Str → Option Nat
  | [] => none
  | a :: l =>
    match rfind c l with
    | some i => some (i + 1)
    | none => if a = c then some 0 else none

/-- base/logging.cc:65-71. -/
def baseName (link : Str) : Option Str :=
  match absName link with
  | none => none
  | some res =>
    match rfind 47 res with
    | none => some res
    | some pos => some (res.drop (pos + 1))

end Verif.ProgName
