import Verif.Cuckoo.Model
/-!
# What the cuckoo map promises: a dictionary

A dictionary whose first insertion of a key wins. Nothing here mentions buckets or hashing.
-/
namespace Verif.Cuckoo

/-- The empty key once it is set, the contents, and the number of keys. -/
structure Dict where
  emptyKey : Option Nat
  get : Nat → Option Nat
  size : Nat

/-- A new map. -/
def Dict.new : Dict := ⟨none, fun _ => none, 0⟩

/-- One call on the dictionary. `none`: the call breaks the rules of the class: the empty key is set
once and before any insertion, and it is neither inserted nor looked up (while it is not set, 0 plays
its part). Compact answers true. -/
def dictStep (d : Dict) : Op → Option (Obs × Dict)
  | .setEmpty k => if d.emptyKey = none then some (.unit, { d with emptyKey := some k }) else none
  | .insert k v =>
    match d.emptyKey with
    | none => none
    | some e =>
      if k = e then none
      else
        match d.get k with
        | some w => some (.inserted (some ⟨k, w⟩) false, d)
        | none => some (.inserted (some ⟨k, v⟩) true,
            { d with get := fun j => if j = k then some v else d.get j, size := d.size + 1 })
  | .find k =>
    if k = d.emptyKey.getD 0 then none else some (.found ((d.get k).map (Slot.mk k)), d)
  | .reserve _ => some (.unit, d)
  | .setGrowth _ => some (.unit, d)
  | .clear => some (.unit, { d with get := fun _ => none, size := 0 })
  | .compact _ => some (.compacted true, d)
  | .size => some (.size d.size, d)

end Verif.Cuckoo
