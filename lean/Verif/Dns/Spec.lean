import Verif.Dns.Model
/-! Words used in the statement of C77. -/
namespace Verif.Dns
open Verif.Common

/-- The result as a caller sees it: the error, and the address in the buffer. -/
def asReturned : Err ⊕ Node → Option Err × Option Node
  | .inl e => (some e, none)
  | .inr n => (none, some n)

/-- What c-ares said last about a socket. -/
def lastCall (cs : List (Nat × Mask)) (fd : Nat) : Option Mask := (cs.reverse.find? fun c => c.1 == fd).map Prod.snd

/-- A mask that asks for nothing. -/
def Mask.empty (m : Mask) : Bool := !m.rd && !m.wr

/-- What should be polled for a socket: what c-ares said last, unless that was nothing. -/
def wanted (cs : List (Nat × Mask)) (fd : Nat) : Option Mask := (lastCall cs fd).filter fun m => !m.empty

/-- What is polled. -/
def polled (m : Socks) (fd : Nat) : Option Mask := (m fd).bind Sk.armed

/-- c-ares tells of the end only of sockets it told of before. -/
def Known (cs : List (Nat × Mask)) : Prop :=
  ∀ pre c post, cs = pre ++ c :: post → c.2.empty = true → lastCall pre c.1 ≠ none

/-- c-ares does not change what it waits for while a socket is in use. -/
def Steady (cs : List (Nat × Mask)) : Prop :=
  ∀ pre c post, cs = pre ++ c :: post → c.2.empty = false → ∀ m, wanted pre c.1 = some m → m = c.2

end Verif.Dns
