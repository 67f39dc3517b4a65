import Verif.Model.StrMap

/-!
Lookup in the index of headers, bant/explore/header-providers.cc. The index maps transformed
paths to the set of providers. `none` is undefined behaviour (access behind the end of a string
or of the map).
-/
namespace Bant
namespace HeaderIndex

variable {α : Type}

/-- bant/explore/header-providers.cc:84-87, `KeyTransform` with `suffix_index`. -/
def keyTransform (path : Str) : Str := path.reverse ++ ['/']

/-- bant/explore/header-providers.cc:358-360, the loop of `CommonPrefix`. -/
def prefixLoop : Str → Str → Option Str
  | [], _ => some []
  | _ :: _, [] => none
  | a :: as, b :: bs =>
    if a ≠ b then some []
    else match prefixLoop as bs with
      | none => none
      | some p => some (a :: p)

/-- bant/explore/header-providers.cc:354-362, `CommonPrefix`. -/
def commonPrefix (a b : Str) : Option Str :=
  if b.length < a.length then prefixLoop b a else prefixLoop a b

/-- bant/explore/header-providers.cc:364-368, `CommonSlashes`. -/
def commonSlashes (a b : Str) : Option Nat := (commonPrefix a b).map fun p => p.count '/'

/-- bant/explore/header-providers.h:57-61, `FindResult`. -/
structure FindResult (α : Type) where
  found : Str
  targets : α
  score : Nat
deriving DecidableEq, Repr

/-- bant/explore/header-providers.cc:402-411: the result for the best entry. -/
def finish (best : Str × α) (common minimum : Nat) : Option (FindResult α) :=
  if common < minimum then none else some ⟨best.1.reverse.tail, best.2, common⟩

/-- bant/explore/header-providers.cc:370-412, `FindBySuffix`. -/
def findBySuffix (index : StrMap α) (key : Str) (minimum : Nat) : Option (Option (FindResult α)) :=
  if index.isEmpty then some none
  else
    let search := keyTransform key
    match (index.lower search).head?, (index.before search).getLast? with
    | some found, prev =>
      if found.1 = search then some (some ⟨key, found.2, 0⟩)
      else
        match commonSlashes search found.1, prev with
        | none, _ => none
        | some common, none => some (finish found common minimum)
        | some common, some prev =>
          match commonSlashes search prev.1 with
          | none => none
          | some c => some (if c > common then finish prev c minimum else finish found common minimum)
    | none, some prev =>
      match commonSlashes search prev.1 with
      | none => none
      | some c => some (finish prev c minimum)
    | none, none => none

/-- Adding a provider for a path: `result[KeyTransform(path)].insert(t)`; a set is a list
without duplicates here. -/
def add [DecidableEq α] (index : StrMap (List α)) (path : Str) (t : α) : StrMap (List α) :=
  index.update (keyTransform path) [] fun s => if t ∈ s then s else s ++ [t]

/-- An index filled by a number of additions. -/
def fill [DecidableEq α] (index : StrMap (List α)) : List (Str × α) → StrMap (List α)
  | [] => index
  | (p, t) :: l => fill (add index p t) l

end HeaderIndex
end Bant
