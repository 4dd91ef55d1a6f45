import Verif.Common.TS
/-!
Model of the log files: base/file_log_sink.cc and base/file_log_sink.h. Any number of threads log at the same time. A step is what happens to one of the files under its mutex.

The C library's `FILE` is a buffer in front of the file: `fwrite` takes the bytes and may pass any number of buffered bytes on to the file, `fflush` and `fclose` pass on all of them. Each of these calls may fail; how much of the
buffer has reached the file by then is up to the environment. Seconds are the unit of time.

Simplifications: the names of the program, the user and the process do not change and do not matter, so the name of a file is its severity and the second in which it was opened. The symbolic links and the messages on stderr are left out. `Init` has
found a directory, so the base path is not empty and the size limit is positive.
-/
namespace Verif.FileLog
open Verif.Common

abbrev Str := List UInt8

/-- A message: its text with prefix and newline, and its severity (0 = INFO, ..., 3 = FATAL). -/
structure Msg where
  line : Str
  sev : Nat
deriving DecidableEq, Repr

/-- file_log_sink.h 69: `fp_`: a null pointer, the mark of a dead file, or an open file, here with the second in its name. -/
inductive Fp where
  | null
  | dead
  | open (sec : Nat)
deriving DecidableEq, Repr

/-- file_log_sink.h 43-73 `LogFile`; `buf` is the buffer of the C library. -/
structure LF where
  fp : Fp := .null
  len : Nat := 0
  since : Nat := 0
  next : Nat := 0
  buf : Str := []
deriving DecidableEq, Repr

/-- A file on the disk: the second in its name, its text, and (for the specification) how often it was opened. -/
structure Entry where
  sec : Nat
  text : Str
  opens : Nat
deriving DecidableEq, Repr

/-- What the environment does during a step: the time, the flags `logbuflevel` and `logbufsecs`, and the results of the calls. `none` is success, `some j` a failure after `j` bytes. -/
structure Env where
  now : Nat
  level : Int := 0
  secs : Nat := 30
  openOk : Bool := true
  rotClose : Option Nat := none
  write : Option Nat := none
  drain : Nat := 0
  flush : Option Nat := none
  close : Option Nat := none
deriving DecidableEq, Repr

/-- No call fails. -/
def Env.ok (e : Env) : Bool := e.openOk && e.rotClose.isNone && e.write.isNone && e.flush.isNone && e.close.isNone

/-- file_log_sink.cc 37 -/
def kFlushBytes : Nat := 1000000

/-- Appends to the file named by `sec`. -/
def addText (d : List Entry) (sec : Nat) (s : Str) : List Entry := d.map fun e => if e.sec = sec then { e with text := e.text ++ s } else e

/-- `fopen` with mode `a`: the file is created if it does not exist. -/
def openEntry (d : List Entry) (sec : Nat) : List Entry := if d.any (·.sec = sec) then d.map fun e => if e.sec = sec then { e with opens := e.opens + 1 } else e else d ++ [⟨sec, [], 1⟩]

/-- The bytes of a buffer that reach the file. -/
def part (r : Option Nat) (b : Str) : Str := match r with
  | none => b
  | some j => b.take j

/-- file_log_sink.cc 190-195 `Close` -/
def close (lf : LF) (d : List Entry) (dead : Bool) (r : Option Nat) : LF × List Entry := match lf.fp with
  | .open sec => ({ lf with fp := if dead then .dead else .null, len := 0, since := 0, buf := [] }, addText d sec (part r lf.buf))
  | _ => (lf, d)

/-- file_log_sink.cc 179-188, 197-200 `FlushLocked`, `ResetFlushThresholds` -/
def flush (lf : LF) (d : List Entry) (e : Env) : LF × List Entry := match lf.fp with
  | .open sec =>
    match e.flush with
    | some j => close { lf with buf := lf.buf.drop j } (addText d sec (lf.buf.take j)) true e.close
    | none => ({ lf with buf := [], since := 0, next := e.now + e.secs }, addText d sec lf.buf)
  | _ => (lf, d)

/-- file_log_sink.cc 122-124: `Open` closes the file that is open. -/
def rotate (lf : LF) (d : List Entry) (e : Env) : LF × List Entry := match lf.fp with
  | .null => (lf, d)
  | _ => close lf d false e.rotClose

/-- file_log_sink.cc 120-158 `Open` -/
def openFile (lf : LF) (d : List Entry) (e : Env) : LF × List Entry :=
  let c := rotate lf d e
  if e.openOk then ({ c.1 with fp := .open e.now, len := 0, since := 0, next := e.now + e.secs, buf := [] }, openEntry c.2 e.now) else ({ c.1 with fp := .dead }, c.2)

/-- file_log_sink.cc 160-177 `WriteAndMaybeFlush`. The last result says whether `fwrite` took the whole line. -/
def writeAndMaybeFlush (lf : LF) (d : List Entry) (m : Msg) (sev : Nat) (e : Env) : LF × List Entry × Bool := match lf.fp with
  | .open sec =>
    let b := lf.buf ++ part e.write m.line
    let lf1 := { lf with buf := b.drop e.drain }
    let d1 := addText d sec (b.take e.drain)
    match e.write with
    | some _ => let c := close lf1 d1 true e.close; (c.1, c.2, false)
    | none =>
      let lf2 := { lf1 with len := lf1.len + m.line.length, since := lf1.since + m.line.length }
      if e.level < (sev : Int) ∨ kFlushBytes ≤ lf2.since ∨ lf2.next ≤ e.now then let f := flush lf2 d1 e; (f.1, f.2, true) else (lf2, d1, true)
  | _ => (lf, d, false)

/-- file_log_sink.cc 247-257: what `Send` does to one file. -/
def sendTo (limit : Nat) (lf : LF) (d : List Entry) (m : Msg) (sev : Nat) (e : Env) : LF × List Entry × Bool :=
  if lf.fp = .dead then (lf, d, false)
  else if lf.fp = .null ∨ limit ≤ lf.len then
    let o := openFile lf d e
    if o.1.fp = .dead then (o.1, o.2, false) else writeAndMaybeFlush o.1 o.2 m sev e
  else writeAndMaybeFlush lf d m sev e

/-- file_log_sink.cc 240-241: FATAL counts as ERROR. -/
def clamp (sev : Nat) : Nat := if 2 < sev then 2 else sev

/-- The files, and the threads that log. `th t` is the message that thread `t` is sending and the next file it goes to. The rest is for the specification: `sent t` the messages that thread `t` has logged so far, in order; `log i` the lines that were
written to file `i`, with their threads; `clean i`: no call for file `i` has failed. -/
structure State where
  files : Nat → LF
  disk : Nat → List Entry
  th : Nat → Option (Msg × Nat)
  clock : Nat
  sent : Nat → List Msg
  log : Nat → List (Nat × Msg)
  clean : Nat → Bool

/-- A thread calls `Send`; a thread goes on to the next file; `Flush` comes to a file; the destructor comes to a file. -/
inductive Act where
  | start (t : Nat) (m : Msg)
  | next (t : Nat) (e : Env)
  | flush (i : Nat) (e : Env)
  | close (i : Nat) (e : Env)

/-- file_log_sink.cc 236-260, 262-269, 229-234: `Send`, `Flush` and the destructor. -/
def step (limit : Nat) (s : State) : Act → Option State
  | .start t m => if s.th t = none then some { s with th := upd s.th t (some (m, clamp m.sev)), sent := upd s.sent t (s.sent t ++ [m]) } else none
  | .next t e =>
    match s.th t with
    | none => none
    | some (m, i) =>
      if e.now < s.clock then none
      else
        let r := sendTo limit (s.files i) (s.disk i) m (clamp m.sev) e
        some { s with
          files := upd s.files i r.1
          disk := upd s.disk i r.2.1
          clock := e.now
          th := upd s.th t (if i = 0 then none else some (m, i - 1))
          log := if r.2.2 then upd s.log i (s.log i ++ [(t, m)]) else s.log
          clean := upd s.clean i (s.clean i && e.ok) }
  | .flush i e =>
    if e.now < s.clock then none
    else
      let r := flush (s.files i) (s.disk i) e
      some { s with files := upd s.files i r.1, disk := upd s.disk i r.2, clock := e.now, clean := upd s.clean i (s.clean i && e.ok) }
  | .close i e =>
    if e.now < s.clock then none
    else
      let r := close (s.files i) (s.disk i) false e.close
      some { s with files := upd s.files i r.1, disk := upd s.disk i r.2, clock := e.now, clean := upd s.clean i (s.clean i && e.ok) }

/-- Nothing has been logged. There may be older files on the disk, but none with the names used from now on; they are left out. -/
def init : State := { files := fun _ => {}, disk := fun _ => [], th := fun _ => none, clock := 0, sent := fun _ => [], log := fun _ => [], clean := fun _ => true }

/-- The states that can be reached. -/
abbrev Reached (limit : Nat) (s : State) : Prop := Reachable (· = init) (step limit) s

end Verif.FileLog
