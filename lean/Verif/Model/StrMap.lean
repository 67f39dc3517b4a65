import Verif.Base.Str

/-! `absl::btree_map<std::string, T>`: sorted by the lexicographic order of bytes. -/
namespace Bant

/-- `operator<` of `std::string`. -/
def strLt : Str → Str → Bool
  | _, [] => false
  | [], _ :: _ => true
  | a :: as, b :: bs => a < b || (a = b && strLt as bs)

/-- The content of the map in the order of iteration. -/
abbrev StrMap (α : Type) := List (Str × α)

namespace StrMap
variable {α : Type}

/-- `map[key]` with an update of the value that is there (`init` if there was none). -/
def update (key : Str) (init : α) (f : α → α) : StrMap α → StrMap α
  | [] => [(key, f init)]
  | e :: m =>
    if strLt key e.1 then (key, f init) :: e :: m
    else if key = e.1 then (e.1, f e.2) :: m
    else e :: update key init f m

/-- `map.find(key)` -/
def get (m : StrMap α) (key : Str) : Option α := (m.find? fun e => e.1 = key).map (·.2)

/-- The entries before `map.lower_bound(key)`. -/
def before (m : StrMap α) (key : Str) : StrMap α := m.takeWhile fun e => strLt e.1 key

/-- The entries from `map.lower_bound(key)` on. -/
def lower (m : StrMap α) (key : Str) : StrMap α := m.dropWhile fun e => strLt e.1 key

end StrMap
end Bant
