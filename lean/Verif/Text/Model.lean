import Verif.Text.Str
/-!
Model of small text parsers: `util/http/http_common.cc` (query strings), `util/cloud/utils.cc` (URLs, ini sections) and the ini
parser of `io/line_reader.cc`.
-/
namespace Verif.Text

/-- util/http/http_common.cc 23-31, `ParseQuery` -/
def parseQuery (s : Str) : Str × Str :=
  match find 63 s with
  | some pos => (s.take pos, s.drop (pos + 1))
  | none => (s, [])

/-- util/http/http_common.cc 36-39: one argument -/
def splitArg (a : Str) : Str × Str :=
  match find 61 a with
  | some pos => (a.take pos, a.drop (pos + 1))
  | none => (a, [])

/-- util/http/http_common.cc 33-42, `SplitQuery` of a view with a data pointer. -/
def splitQuery (q : Str) : List (Str × Str) := (split 38 q).map splitArg

/-- `SplitQuery(ParseQuery(target).second)`. Without a question mark the query is a default constructed view, whose data pointer is null, and `absl::StrSplit` of such a view has no pieces; an empty view with a data pointer has one
empty piece. -/
def queryArgs (target : Str) : List (Str × Str) := if 63 ∈ target then splitQuery (parseQuery target).2 else []

/-- util/cloud/utils.h 243-248 -/
structure HttpUrl where
  host : Str
  port : Str
  path : Str
  https : Bool
  deriving DecidableEq, Repr

/-- util/cloud/utils.cc 167: the path -/
def urlPath (uri : Str) : Str :=
  match find 47 uri with
  | none => lit "/"
  | some i => uri.drop i

/-- util/cloud/utils.cc 169-172: host and port -/
def urlHostPort (https : Bool) (hostPort : Str) : Str × Str :=
  match rfind 58 hostPort with
  | none => (hostPort, if https then lit "443" else lit "80")
  | some c => (hostPort.take c, hostPort.drop (c + 1))

/-- util/cloud/utils.cc 165-174: `ParseHttpUrl` after the scheme -/
def urlRest (https : Bool) (uri : Str) : HttpUrl :=
  let hp := urlHostPort https (upTo uri (find 47 uri))
  ⟨hp.1, hp.2, urlPath uri, https⟩

/-- util/cloud/utils.cc 159-175, `ParseHttpUrl` -/
def parseHttpUrl (uri : Str) : HttpUrl :=
  let s := consumePrefix (lit "https://") uri
  urlRest s.1 (if s.1 then s.2 else (consumePrefix (lit "http://") s.2).2)

/-- util/cloud/utils.cc 296: `StrSplit(line, MaxSplits('=', 1))` into a pair -/
def splitKv (l : Str) : Str × Str :=
  match find 61 l with
  | some pos => (l.take pos, l.drop (pos + 1))
  | none => (l, [])

/-- util/cloud/utils.cc 285-297: one line of `ParseIniSection` with the current value of `in_section`; the new value and the
callback made. -/
def iniLine (sect : Str) (inSect : Bool) (raw : Str) : Bool × List (Str × Str) :=
  let line := strip raw
  match line with
  | [] => (inSect, [])
  | c :: _ =>
    if c == 35 || c == 59 then (inSect, [])
    else if c == 91 then
      (if sect.isEmpty then inSect else line == [91] ++ sect ++ [93], [])
    else if !inSect then (inSect, [])
    else
      let kv := splitKv line
      (inSect, [(strip kv.1, strip kv.2)])

/-- The loop of `ParseIniSection`. -/
def iniLines (sect : Str) : Bool → List Str → Bool × List (Str × Str)
  | b, [] => (b, [])
  | b, l :: ls =>
    let (b, out) := iniLine sect b l
    let (b, rest) := iniLines sect b ls
    (b, out ++ rest)

/-- util/cloud/utils.cc 280-299, `ParseIniSection`: the calls made to `cb`, in order. -/
def parseIniSection (content sect : Str) : List (Str × Str) :=
  (iniLines sect sect.isEmpty (split 10 content)).2

/-- A parsed ini file: `unordered_map<string, unordered_map<string, string>>`, as the lookup it provides. -/
abbrev Contents := Str → Option (Str → Option Str)

/-- `map = &result[name]` creates the section if it is not there. -/
def Contents.touch (r : Contents) (name : Str) : Contents :=
  fun n => if n = name then some ((r name).getD (fun _ => none)) else r n

/-- `(*map)[key] = val` -/
def Contents.put (r : Contents) (name key val : Str) : Contents :=
  fun n => if n = name then some (fun k => if k = key then some val else (r name).getD (fun _ => none) k) else r n

/-- io/line_reader.cc 151-184: one line of `ini::Parse`; `cur` is the section `map` points to, if any. -/
def iniParseLine (r : Contents) (cur : Option Str) (raw : Str) : Contents × Option Str :=
  let line := strip raw
  let line := upTo line (findFirstOf (fun c => c == 59 || c == 35) line)
  match line with
  | [] => (r, cur)
  | c :: rest =>
    if c == 91 && line.getLast? == some 93 then
      -- `remove_prefix(1)` and then `remove_suffix(1)`
      let name := strip rest.dropLast
      (r.touch name, some name)
    else match find 61 line with
      | none => (r, cur)
      | some pos =>
        let key := strip (line.take pos)
        let val := strip (line.drop (pos + 1))
        let name := cur.getD []
        (r.put name key val, some name)

/-- io/line_reader.cc 144-191, `ini::Parse` given the lines the `LineReader` yields. -/
def iniParse (r : Contents) (cur : Option Str) : List Str → Contents × Option Str
  | [] => (r, cur)
  | l :: ls =>
    let (r, cur) := iniParseLine r cur l
    iniParse r cur ls

end Verif.Text
