import Verif.Resp.Model

/-!
# The requests

A request in the array form is `*<number of arguments>\r\n`, then for every argument
`$<number of bytes>\r\n<bytes>\r\n`. A request in the inline form is one line, its arguments are the words.
-/
namespace Verif.Resp

def bytesOf (s : String) : List Nat := s.toList.map Char.toNat

/-- Decimal notation. -/
def dec (n : Nat) : List Nat := if h : n < 10 then [48 + n] else dec (n / 10) ++ [48 + n % 10]
decreasing_by omega

def crlf : List Nat := [13, 10]

def encBulk (a : List Nat) : List Nat := 36 :: dec a.length ++ crlf ++ a ++ crlf

def encArgs (as : List (List Nat)) : List Nat := (as.map encBulk).flatten

def encode (as : List (List Nat)) : List Nat := 42 :: dec as.length ++ crlf ++ encArgs as

/-- Within the limits of the server: at most 1024 arguments of at most 64 MB each. -/
def Allowed (as : List (List Nat)) : Prop :=
  0 < as.length ∧ as.length ≤ 1024 ∧ ∀ a ∈ as, a.length ≤ 64 * 2 ^ 20

/-- The words of a line, `cur` being the word read so far: bytes above 32 form words. -/
def words (cur : List Nat) : List Nat → List (List Nat)
  | [] => if cur = [] then [] else [cur]
  | b :: l => if b > 32 then words (cur ++ [b]) l
    else if cur = [] then words [] l else cur :: words [] l

/-- The bytes received so far end inside the body of an argument (or of the line end behind it). -/
def MidBody (as : List (List Nat)) (x : List Nat) : Prop :=
  ∃ done a todo y z, as = done ++ a :: todo ∧ a ++ crlf = y ++ z ∧ z ≠ [] ∧
    x = 42 :: dec as.length ++ crlf ++ encArgs done ++ (36 :: dec a.length ++ crlf) ++ y

/-- A connection between two requests. -/
def Ready (s : S) : Prop := (s.st = .start ∨ s.st = .complete) ∧ s.broken = false

/-- The server has the request `as`, and some of the bytes that follow it. -/
def Got (as : List (List Nat)) (tail : List Nat) (r : Option Res) : Prop :=
  ∃ args s rest rest', r = some (.request args s rest) ∧ args.map (·.data) = as ∧ Ready s ∧ tail = rest ++ rest'

/-- The same, and every argument can be read. -/
def GotValid (as : List (List Nat)) (tail : List Nat) (r : Option Res) : Prop :=
  ∃ args s rest rest', r = some (.request args s rest) ∧ args.map (·.data) = as ∧ Ready s ∧ tail = rest ++ rest' ∧
    ∀ a ∈ args, valid s.call a = true

end Verif.Resp
