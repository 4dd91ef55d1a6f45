import Verif.Common.TS
/-!
# Views of strings that may move

`/repo/base/string_view_sso.h`: a view that is to stay right while the string it shows is moved from place to place, as it happens to
the strings of a flat container.

The strings themselves are `std::string` of libstdc++, which is not part of the code: at most 15 bytes are in the object, more are in a
block of the heap, and a string that once had a block may keep it for a short value. Characters are numbers.
-/
namespace Verif.Sso
open Verif.Common

/-- `LOCAL_CAPACITY` (string_view_sso.h 404-413) -/
def cap : Nat := 15

/-- The object of a string: the bytes in it, or a block and the number of bytes of it in use. -/
inductive Rep
  | loc (bs : List Nat)
  | heap (b n : Nat)
deriving DecidableEq, Repr

/-- Where a `const char*` points to. -/
inductive Ptr
  | inObj (a off : Nat)
  | inBlock (b off : Nat)
deriving DecidableEq, Repr

/-- `string_view_sso`: `Buffer` and `size_` (419-441). Which member of the union is used is told by the size. -/
inductive View
  | copied (bs : List Nat)
  | far (p : Ptr) (n : Nat)
deriving DecidableEq, Repr

/-- A view, the string it is of, and the piece of it. -/
structure Entry where
  v : View
  id : Nat
  off : Nat
  len : Nat
deriving DecidableEq, Repr

structure St where
  /-- the objects by address, with the identity of the string that is in it -/
  objs : Nat → Option (Rep × Option Nat)
  heap : Nat → Option (List Nat)
  views : List Entry
  nextBlock : Nat
  nextId : Nat

def init : St := ⟨fun _ => none, fun _ => none, [], 0, 0⟩

/-- The value of a string. -/
def content (s : St) : Rep → Option (List Nat)
  | .loc bs => some bs
  | .heap b n => (s.heap b).map (List.take n)

/-- `str.data()` -/
def dataPtr (a : Nat) : Rep → Ptr
  | .loc _ => .inObj a 0
  | .heap b _ => .inBlock b 0

def Ptr.plus : Ptr → Nat → Ptr
  | .inObj a o, k => .inObj a (o + k)
  | .inBlock b o, k => .inBlock b (o + k)

/-- The `n` bytes at a pointer; `none` if they are not there. -/
def deref (s : St) (p : Ptr) (n : Nat) : Option (List Nat) :=
  match p with
  | .inObj a o =>
    match s.objs a with
    | some (.loc bs, _) => if o + n ≤ bs.length then some ((bs.drop o).take n) else none
    | _ => none
  | .inBlock b o =>
    match s.heap b with
    | some bs => if o + n ≤ bs.length then some ((bs.drop o).take n) else none
    | none => none

/-- `string_view_sso(const char* data, size_type len)` (66) with `Buffer` (430-440): few bytes are copied, for many the pointer is kept.
`none` if bytes are read that are not there. -/
def mk (s : St) (p : Ptr) (n : Nat) : Option View :=
  if n ≤ cap then (deref s p n).map .copied else some (.far p n)

/-- What a view shows: `operator std::string_view` (261-263) with `ptr` (415-417). -/
def read (s : St) : View → Option (List Nat)
  | .copied bs => some bs
  | .far p n => deref s p n

/-- `size` (151-153) -/
def View.size : View → Nat
  | .copied bs => bs.length
  | .far _ n => n

/-- `substr` (286-291); `none` is the exception or a bad access. The copied bytes are in the view itself, so that nothing can go wrong with
them. -/
def substr (s : St) (v : View) (pos n : Nat) : Option View :=
  if pos > v.size then none
  else
    let k := min n (v.size - pos)
    match v with
    | .copied bs => some (.copied ((bs.drop pos).take k))
    | .far p _ => mk s (p.plus pos) k

inductive Act
  /-- a string with this value is made at the address; with `big` it has a block even if it is short -/
  | new (a : Nat) (bs : List Nat) (big : Bool)
  | moveCtor (dst src : Nat)
  | moveAssign (dst src : Nat)
  | destroy (a : Nat)
  /-- one character is changed in place; the string counts as another one from then on -/
  | poke (a k c : Nat)
  /-- a view of a piece of the string at `a` -/
  | take (a off len : Nat)
  /-- a view of a piece of a view -/
  | sub (k pos n : Nat)
deriving DecidableEq, Repr

/-- What the moving container does to its strings (libstdc++'s `std::string`), and the making of views. -/
def step (s : St) : Act → Option St
  | .new a bs big =>
    match s.objs a with
    | some _ => none
    | none =>
      if bs.length ≤ cap && !big then
        some { s with objs := upd s.objs a (some (.loc bs, some s.nextId)), nextId := s.nextId + 1 }
      else
        some { s with
          objs := upd s.objs a (some (.heap s.nextBlock bs.length, some s.nextId))
          heap := upd s.heap s.nextBlock (some (bs ++ List.replicate cap 0))
          nextBlock := s.nextBlock + 1
          nextId := s.nextId + 1 }
  | .moveCtor dst src =>
    match s.objs dst, s.objs src with
    | none, some (r, i) => some { s with objs := upd (upd s.objs dst (some (r, i))) src (some (.loc [], none)) }
    | _, _ => none
  | .moveAssign dst src =>
    if dst = src then none
    else match s.objs dst, s.objs src with
      | some (.loc _, _), some (r, i) => some { s with objs := upd (upd s.objs dst (some (r, i))) src (some (.loc [], none)) }
      | some (.heap b _, _), some (.heap b' n', i) =>
        some { s with objs := upd (upd s.objs dst (some (.heap b' n', i))) src (some (.heap b 0, none)) }
      | some (.heap b _, _), some (.loc bs, i) =>
        some { s with
          objs := upd (upd s.objs dst (some (.heap b bs.length, i))) src (some (.loc [], none))
          heap := upd s.heap b ((s.heap b).map (fun old => bs ++ old.drop bs.length)) }
      | _, _ => none
  | .destroy a =>
    match s.objs a with
    | none => none
    | some (.loc _, _) => some { s with objs := upd s.objs a none }
    | some (.heap b _, _) => some { s with objs := upd s.objs a none, heap := upd s.heap b none }
  | .poke a k c =>
    match s.objs a with
    | some (.loc bs, some _) =>
      if k < bs.length then
        some { s with objs := upd s.objs a (some (.loc (bs.set k c), some s.nextId)), nextId := s.nextId + 1 }
      else none
    | some (.heap b n, some _) =>
      if k < n then
        some { s with
          objs := upd s.objs a (some (.heap b n, some s.nextId))
          heap := upd s.heap b ((s.heap b).map (fun old => old.set k c))
          nextId := s.nextId + 1 }
      else none
    | _ => none
  | .take a off len =>
    match s.objs a with
    | some (r, some i) =>
      match content s r with
      | some bs =>
        if off + len ≤ bs.length then
          (mk s ((dataPtr a r).plus off) len).map (fun v => { s with views := ⟨v, i, off, len⟩ :: s.views })
        else none
      | none => none
    | _ => none
  | .sub k pos n =>
    match s.views[k]? with
    | some e => (substr s e.v pos n).map (fun v => { s with views := ⟨v, e.id, e.off + pos, min n (e.len - pos)⟩ :: s.views })
    | none => none

end Verif.Sso
