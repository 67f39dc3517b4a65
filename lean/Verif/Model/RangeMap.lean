import Verif.Base.Str

/-! Map from disjoint ranges: bant/util/disjoint-range-map.h. -/
namespace Bant
namespace RangeMap

variable {α : Type}

/-- The `btree_map` (bant/util/disjoint-range-map.h:48-50): from end of a range to its begin and
the value; sorted, each key once. Addresses are numbers. -/
abbrev Container (α : Type) := List (Nat × (Nat × α))

/-- `insert` of the map: does nothing if the key is there already. -/
def insertSorted (k : Nat) (v : Nat × α) : Container α → Container α × Bool
  | [] => ([(k, v)], true)
  | e :: m =>
    if k < e.1 then ((k, v) :: e :: m, true)
    else if k = e.1 then (e :: m, false)
    else
      let r := insertSorted k v m
      (e :: r.1, r.2)

/-- bant/util/disjoint-range-map.h:33-36, `Insert`. -/
def insert (m : Container α) (b e : Nat) (v : α) : Container α × Bool := insertSorted e (b, v) m

/-- `lower_bound`: the first entry with a key that is not less. -/
def lowerBound (m : Container α) (k : Nat) : Option (Nat × (Nat × α)) := m.find? fun e => ¬ e.1 < k

/-- bant/util/disjoint-range-map.h:39-45, `FindBySubrange`. -/
def find (m : Container α) (b e : Nat) : Option α :=
  match lowerBound m e with
  | none => none
  | some (_, (first, v)) => if first > b then none else some v

/-- A number of insertions. -/
def inserts (m : Container α) : List (Nat × Nat × α) → Container α
  | [] => m
  | (b, e, v) :: rs => inserts (insert m b e v).1 rs

end RangeMap
end Bant
