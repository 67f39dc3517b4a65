import Verif.Model.StrMap
import Verif.Model.TypesBazel

/-! `std::set` and `absl::btree_map`, with packages or targets as keys: lists in the order of iteration. -/
namespace Bant

/-- `operator<` -/
class Ordered (α : Type) where
  lt : α → α → Bool

/-- bant/types-bazel.h:60: the order of members. -/
instance : Ordered BazelPackage where
  lt a b := strLt a.project b.project || (a.project = b.project && strLt a.path b.path)

/-- bant/types-bazel.h:87: the order of members. -/
instance : Ordered BazelTarget where
  lt a b := Ordered.lt a.package b.package || (a.package = b.package && strLt a.name b.name)

/-- Put something before the first element with a greater key. -/
def place {α β : Type} [Ordered α] (key : β → α) (x : β) : List β → List β
  | [] => [x]
  | y :: ys => if Ordered.lt (key x) (key y) then x :: y :: ys else y :: place key x ys

/-- `set.insert(x)` -/
def add {α : Type} [Ordered α] [DecidableEq α] (x : α) (s : List α) : List α :=
  if x ∈ s then s else place id x s

/-- `map.insert({key, value})`: nothing happens if the key is there. -/
def insertNew {α β : Type} [Ordered α] [DecidableEq α] (key : α) (value : β) (m : List (α × β)) :
    List (α × β) :=
  if m.any (fun e => e.1 = key) then m else place (·.1) (key, value) m

/-- Append to the value of a key that is there. -/
def appendAt {α β : Type} [DecidableEq α] (key : α) (value : β) : List (α × List β) → List (α × List β)
  | [] => []
  | e :: m => if e.1 = key then (e.1, e.2 ++ [value]) :: m else e :: appendAt key value m

/-- `map[key].push_back(value)` -/
def push {α β : Type} [Ordered α] [DecidableEq α] (key : α) (value : β) (m : List (α × List β)) :
    List (α × List β) :=
  if m.any (fun e => e.1 = key) then appendAt key value m else place (·.1) (key, [value]) m

end Bant
