import Verif.Text.Str
import Verif.IoBuf.Model
/-!
Model of `ReadProcFile` (`io/proc_reader.cc`), on top of the model of `base::IoBuf`.
-/
namespace Verif.Proc
open Verif.Text Verif.IoBuf

/-- The initialised bytes of a span; reading an indeterminate byte is undefined. -/
def known : List Cell → Option Str
  | [] => some []
  | none :: _ => none
  | some c :: cs => (known cs).map (c :: ·)

/-- io/proc_reader.cc 50-79: the inner loop, over the lines in the buffer. The result is the new `header_skipped`, the buffer and
the calls of `cb`. Every round but the last consumes a line, so `fuel` never runs out (shown in the proofs). -/
def inner (sep : Byte) : (fuel : Nat) → Bool → Buf → Option (Bool × Buf × List (Str × Str))
  | 0, _, _ => none
  | fuel + 1, hdr, b =>
    match b.input.bind known with
    | none => none
    | some input =>
      match find 10 input with
      | none =>
        if b.appendLen = 0 then (b.ensureCapacity (b.cap * 2)).map fun b => (hdr, b, [])
        else some (hdr, b, [])
      | some eol =>
        let line := input.take eol
        if !hdr then
          match b.consumeInput (line.length + 1) with
          | none => none
          | some b => inner sep fuel true b
        else match find sep line with
          | none => some (hdr, b, [])
          | some pos =>
            match b.consumeInput (line.length + 1) with
            | none => none
            | some b => (inner sep fuel hdr b).map fun r =>
                (r.1, r.2.1, (line.take pos, stripLeading (line.drop (pos + 1))) :: r.2.2)

/-- io/proc_reader.cc 35-80: the outer loop. `rest` is the part of the file not read yet, `sched i` what the `i`-th `read` does: fail
(`none`) or return at most `k + 1` bytes (`some k`), never more than asked for or left. The result is whether there was no
error, and the calls of `cb`; `none` is undefined behaviour. -/
def outer (sep : Byte) (sched : Nat → Option Nat) (i : Nat) (rest : Str) (b : Buf) (hdr : Bool) :
    Option (Bool × List (Str × Str)) :=
  match sched i with
  | none => some (false, [])
  | some k =>
    let n := min (k + 1) (min b.appendLen rest.length)
    if _hn : n = 0 then some (true, [])
    else match b.fillAndCommit (rest.take n) with
      | none => none
      | some b => match inner sep (b.inputLen + 1) hdr b with
        | none => none
        | some r => (outer sep sched (i + 1) (rest.drop n) r.2.1 r.1).map fun o => (o.1, r.2.2 ++ o.2)
termination_by rest.length
decreasing_by simp only [List.length_drop]; omega

/-- io/proc_reader.cc 27-84, `ReadProcFile` on a file that could be opened -/
def readProcFile (sep : Byte) (skipHeader : Bool) (sched : Nat → Option Nat) (file : Str) : Option (Bool × List (Str × Str)) :=
  match create 512 with
  | none => none
  | some b => outer sep sched 0 file b (!skipHeader)

/-- io/proc_reader.cc 91-99, `find_nth`; `index` is an `unsigned` that wraps -/
def findNth (c : Byte) : Str → Nat → Option Nat
  | [], _ => none
  | d :: s, index =>
    if d == c then
      if index = 0 then some 0 else (findNth c s (index - 1)).map (· + 1)
    else (findNth c s index).map (· + 1)

end Verif.Proc
