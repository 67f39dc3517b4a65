import Verif.Base.Str

/-! Path components, for the specification of header lookup (C25). -/
namespace Bant.Paths

/-- The components of a path: the text between the slashes. -/
def components : Str → List Str
  | [] => [[]]
  | x :: xs =>
    if x = '/' then [] :: components xs
    else match components xs with
      | [] => [[x]]
      | p :: ps => (x :: p) :: ps

/-- How many elements two lists have in common at the begin. -/
def sharedStart {α : Type} [DecidableEq α] : List α → List α → Nat
  | x :: xs, y :: ys => if x = y then 1 + sharedStart xs ys else 0
  | _, _ => 0

/-- How many components two paths have in common at the end. -/
def sharedEnd (a b : Str) : Nat := sharedStart (components a).reverse (components b).reverse

end Bant.Paths
