/-!
# Model of the range adapters (base/iterator.h)

An iterator is its state and three operations. Dereferencing may change the state, as `operator*` of `CompoundIterator` (37-39) is not
const: the function object it calls may be a mutable lambda. Simplified: indices are natural numbers (`size_t` in the code).
-/
namespace Verif.Iter

/-- A kind of iterator with states `σ` and values `β`. `deref` is `none` where the code has undefined behaviour. -/
structure Kind (σ β : Type) where
  deref : σ → Option (β × σ)
  next : σ → σ
  eq : σ → σ → Bool

/-- A pointer into an array with the elements `l`. -/
def array {α : Type} (l : List α) : Kind Nat α where
  deref i := (l[i]?).map fun x => (x, i)
  next i := i + 1
  eq i j := i == j

/-- `CompoundIterator` with one inner iterator (15-58): the state is `f`, absent in the end iterator, and the inner iterator; `f` maps its own
state and an element to a value and its new state. Comparison looks at the inner iterators only (46-52). -/
def compound {σ φ α β : Type} (f : φ → α → β × φ) (k : Kind σ α) : Kind (Option φ × σ) β where
  deref s := match s.1, k.deref s.2 with
    | some q, some (x, t) => some ((f q x).1, some (f q x).2, t)
    | _, _ => none
  next s := (s.1, k.next s.2)
  eq a b := k.eq a.2 b.2

/-- `std::variant` of two inner iterators (56) with the operations through `visit`; iterators of different alternatives are different. More
alternatives are obtained by nesting. -/
def either {σ τ β : Type} (k : Kind σ β) (m : Kind τ β) : Kind (σ ⊕ τ) β where
  deref s := match s with
    | .inl a => (k.deref a).map fun r => (r.1, .inl r.2)
    | .inr b => (m.deref b).map fun r => (r.1, .inr r.2)
  next s := match s with
    | .inl a => .inl (k.next a)
    | .inr b => .inr (m.next b)
  eq a b := match a, b with
    | .inl a, .inl b => k.eq a b
    | .inr a, .inr b => m.eq a b
    | _, _ => false

/-- `Range` (61-75). `begin` and `end` return copies. -/
structure Range (σ : Type) where
  first : σ
  last : σ

/-- `Transform` (78-81): `q` is the initial state of the function object. -/
def transform {σ φ : Type} (q : φ) (r : Range σ) : Range (Option φ × σ) := ⟨(some q, r.first), (none, r.last)⟩

/-- `Wrap` (85-92) over a variant of two containers, given as the range of the one that is held. -/
def wrap {σ τ φ : Type} (q : φ) (c : Range σ ⊕ Range τ) : Range (Option φ × (σ ⊕ τ)) :=
  match c with
  | .inl r => ⟨(some q, .inl r.first), (none, .inl r.last)⟩
  | .inr r => ⟨(some q, .inr r.first), (none, .inr r.last)⟩

/-- The lambda of `WithIndex` (96). -/
def indexed {α : Type} (idx : Nat) (v : α) : (Nat × α) × Nat := ((idx, v), idx + 1)

/-- `WithIndex` (94-98). -/
def withIndex {σ : Type} (r : Range σ) : Range (Option Nat × σ) := transform 0 r

/-- A function object without state. -/
def pure' {α β : Type} (g : α → β) (_ : Unit) (v : α) : β × Unit := (g v, ())

/-- `for (auto x : range)`: the values that the body sees, at most `n` rounds; `none` if that is not enough or the behaviour is
undefined. -/
def forLoop {σ β : Type} (k : Kind σ β) : Nat → σ → σ → Option (List β)
  | 0, _, _ => none
  | n + 1, it, last =>
    if k.eq it last then some []
    else match k.deref it with
      | none => none
      | some (x, it') => (forLoop k n (k.next it') last).map (x :: ·)

end Verif.Iter
