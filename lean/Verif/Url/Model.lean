/-!
Model of URL percent-encoding: `strings/escaping.cc` and `util/http/encoding.cc`.

Characters are bytes. Destination buffers have the capacity the code gives them; a write outside is `ub`.
-/
namespace Verif.Url

abbrev Byte := UInt8

/-- `absl::ascii_isalnum` -/
def isAlnum (c : Byte) : Bool :=
  (48 ≤ c && c ≤ 57) || (65 ≤ c && c ≤ 90) || (97 ≤ c && c ≤ 122)

/-- `absl::ascii_isxdigit` -/
def isXdigit (c : Byte) : Bool :=
  (48 ≤ c && c ≤ 57) || (65 ≤ c && c ≤ 70) || (97 ≤ c && c ≤ 102)

/-- strings/escaping.cc 10-13, `IsValidUrlChar`: alphanumerics and `- _ . ! ~ * ( )` -/
def isValid (c : Byte) : Bool :=
  isAlnum c || c == 45 || c == 95 || c == 46 || c == 33 || c == 126 || c == 42 || c == 40 || c == 41

/-- strings/escaping.cc 16, util/http/encoding.cc 23: `digits[n]`, the table "0123456789ABCDEF"; `n` is masked to 0..15. -/
def digit (n : Byte) : Byte := if n < 10 then 48 + n else 55 + n

/-- strings/escaping.cc 15-32, `InternalUrlEncode` into a buffer of `cap` bytes; the result is what was written before the
terminating NUL. `none`: a write past the end of the buffer. -/
def encodeLoop : List Byte → Nat → Option (List Byte)
  | [], cap => if 1 ≤ cap then some [] else none
  | c :: cs, cap =>
    if isValid c then
      if 1 ≤ cap then (encodeLoop cs (cap - 1)).map ([c] ++ ·) else none
    else
      if 3 ≤ cap then (encodeLoop cs (cap - 3)).map ([37, digit ((c >>> 4) &&& 15), digit (c &&& 15)] ++ ·) else none

/-- strings/escaping.cc 69-75, `AppendUrlEncoded(src, dest)`; the value is the new `*dest`. The size computation is taken not to
overflow. -/
def appendUrlEncoded (src dest : List Byte) : Option (List Byte) :=
  (encodeLoop src (src.length * 3 + 1)).map (dest ++ ·)

/-- strings/escaping.cc 34-42, `hex_digit_to_int` -/
def hexVal (c : Byte) : Byte := (if c > 57 then c + 9 else c) &&& 15

/-- Arithmetic of `unsigned`. -/
def w32 (n : Nat) : Nat := n % 2 ^ 32

/-- One iteration of the decoding loop. -/
inductive DStep
  | stop
  | fail
  | ub
  | byte (c : Byte) (i : Nat)
  deriving DecidableEq, Repr

/-- strings/escaping.cc 46-63: the body of the loop of `InternalUrlDecode` with index `i`, an `unsigned` compared with the
`size_t` length. Reading `src` outside its bounds is `ub`. -/
def decodeStep (src : List Byte) (i : Nat) : DStep :=
  if i < src.length then
    match src[i]? with
    | none => .ub
    | some c =>
      if c ≠ 37 then .byte c (w32 (i + 1))
      else if w32 (i + 3) > src.length then .fail
      else match src[w32 (i + 1)]?, src[w32 (i + 2)]? with
        | some a, some b =>
          if !isXdigit a || !isXdigit b then .fail
          else .byte ((hexVal a <<< 4) ||| hexVal b) (w32 (w32 (i + 2) + 1))
        | _, _ => .ub
  else .stop

/-- The result of `InternalUrlDecode`. -/
inductive DRes
  | ok (bs : List Byte)
  | fail
  | ub
  deriving DecidableEq, Repr

def DRes.cons (c : Byte) : DRes → DRes
  | .ok bs => .ok (c :: bs)
  | r => r

/-- strings/escaping.cc 44-66, `InternalUrlDecode` from index `i` with `cap` bytes of the destination left. The terminating NUL goes
to the byte after the string's contents, which a `std::string` always has. -/
def decodeLoop (src : List Byte) : Nat → Nat → DRes
  | 0, i => match decodeStep src i with
    | .stop => .ok []
    | .fail => .fail
    | .ub => .ub
    | .byte _ _ => .ub
  | cap + 1, i => match decodeStep src i with
    | .stop => .ok []
    | .fail => .fail
    | .ub => .ub
    | .byte c i => (decodeLoop src cap i).cons c

/-- strings/escaping.cc 77-89, `AppendUrlDecoded(src, dest)`: the returned bool and the new `*dest`; `none` is undefined
behaviour: a write outside the buffer, or `front()` of an empty string (line 80), which is what happens when both strings are
empty. -/
def appendUrlDecoded (src dest : List Byte) : Option (Bool × List Byte) :=
  if src.length + dest.length = 0 then none
  else match decodeLoop src src.length 0 with
    | .ok bs => some (true, dest ++ bs)
    | .fail => some (false, dest)
    | .ub => none

/-- util/http/encoding.cc 13-16, `IsValidUrlChar`: alphanumerics and `- _ . ! ' ( )`. `std::isalnum` is called with a `char`; it
is undefined for negative values, that is bytes above 127 (`none`). -/
def isValidHttp (c : Byte) : Option Bool :=
  if c ≥ 128 then none
  else some (isAlnum c || c == 45 || c == 95 || c == 46 || c == 33 || c == 39 || c == 40 || c == 41)

/-- util/http/encoding.cc 22-40, `util::http::UrlEncode` -/
def httpUrlEncode : List Byte → Option (List Byte)
  | [] => some []
  | c :: cs => match isValidHttp c, httpUrlEncode cs with
    | some true, some r => some (c :: r)
    | some false, some r => some (37 :: digit ((c >>> 4) &&& 15) :: digit (c &&& 15) :: r)
    | _, _ => none

end Verif.Url
