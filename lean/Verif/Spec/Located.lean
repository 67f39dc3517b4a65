import Verif.Model.Located

/-!
Where the name and the dependencies of a rule are written (C110, C111): in the keyword arguments of its call.
-/
namespace Bant
namespace LocatedSpec
open Located

mutual
/-- Function calls that are not part of an assignment or of another call, in document order. -/
def sites : Tree → List (Tree × Tree)
  | .null => []
  | .str _ _ _ => []
  | .int _ _ => []
  | .ident _ => []
  | .unary _ e => sites e
  | .binop _ _ a b => sites a ++ sites b
  | .list _ xs => sitesIn xs
  | .compr _ e => sites e
  | .ternary a b c => sites a ++ (sites b ++ sites c)
  | .assign _ _ => []
  | .call f args => [(f, args)]
def sitesIn : List Tree → List (Tree × Tree)
  | [] => []
  | x :: xs => sites x ++ sitesIn xs
end

mutual
/-- Keyword arguments, also those of calls inside, in document order. -/
def kwArgs : Tree → List (Tree × Tree)
  | .null => []
  | .str _ _ _ => []
  | .int _ _ => []
  | .ident _ => []
  | .unary _ e => kwArgs e
  | .binop _ _ a b => kwArgs a ++ kwArgs b
  | .list _ xs => kwArgsIn xs
  | .compr _ e => kwArgs e
  | .ternary a b c => kwArgs a ++ (kwArgs b ++ kwArgs c)
  | .assign l v => [(l, v)]
  | .call _ args => kwArgs args
def kwArgsIn : List Tree → List (Tree × Tree)
  | [] => []
  | x :: xs => kwArgs x ++ kwArgsIn xs
end

/-- The value of a keyword argument if it is `key` and of the kind selected by `f`. -/
def value {α : Type} (key : Str) (f : Tree → Option α) (kw : Tree × Tree) : Option α :=
  match kw.1 with
  | .ident k => if k.text = key then f kw.2 else none
  | _ => none

/-- The value of the last keyword argument `key` that is of the kind selected by `f`. -/
def last {α : Type} (key : Str) (f : Tree → Option α) (kws : List (Tree × Tree)) : Option α :=
  kws.reverse.findSome? (value key f)

/-- Strings and numbers. -/
def text : Tree → Option View
  | .str v _ _ => some v
  | .int v _ => some v
  | _ => none

/-- Elements of lists. -/
def elements : Tree → Option (List Tree)
  | .list _ xs => some xs
  | _ => none

/-- The non-empty strings and numbers of a list. -/
def texts (xs : List Tree) : List View := (xs.filterMap text).filter fun v => !v.text.isEmpty

end LocatedSpec
end Bant
