import Verif.Model.Print
import Verif.Model.Query
import Verif.Model.TypesBazel

/-
Model of `PrintProject` in bant/frontend/parsed-project.cc.

The location that is printed for a rule (`ParsedProject::Loc`) is taken as given, one for each
result of the query. A grep pattern that does not compile (nothing is printed then) is not
modelled.
-/
namespace Bant
namespace Print
open Query

/-- The flags that are read: bant/frontend/parsed-project.cc:253-257, 269, 290 -/
structure Options where
  onlyErrors : Bool
  find : Option Find
  color : Bool

/-- One file of the project; `loc k` is the location of the name of the `k`th rule. -/
structure File where
  package : BazelPackage
  ast : Node
  hasErrors : Bool
  loc : Nat → Str

/-- bant/frontend/parsed-project.cc:243-248, the loop; `none`: a missing element is
dereferenced. `AsString` of a number is the number as written (ast.h). -/
def visibilityWords : List Node → Option Str
  | [] => some []
  | n :: ns =>
    match n with
    | .null => none
    | .str t _ _ => (visibilityWords ns).map (' ' :: t ++ ·)
    | .int rep _ => (visibilityWords ns).map (' ' :: rep ++ ·)
    | _ => visibilityWords ns

/-- bant/frontend/parsed-project.cc:240-250, `MaybePrintVisibility`. -/
def visibilityText : Option ListRef → Option Str
  | none => some []
  | some (_, xs) => (visibilityWords xs).map fun w => c!" (visibility:" ++ w ++ c!")"

/-- bant/frontend/parsed-project.cc:278-281 -/
def targetOf (package : BazelPackage) (r : Result) : Option BazelTarget :=
  if r.name = [] then none else package.qualifiedTarget r.name

/-- bant/frontend/parsed-project.cc:282-287 -/
def wanted (pattern : BazelPattern) (package : BazelPackage) (r : Result) : Bool :=
  pattern.isRecursive || (match targetOf package r with
    | none => false
    | some t => pattern.matchTarget t)

/-- bant/frontend/parsed-project.cc:290-297: the comment in front of the rule. -/
def comment (o : Options) (package : BazelPackage) (loc : Str) (r : Result) : Option Str :=
  (visibilityText r.visibility).map fun v =>
    colored o.color c!"\x1b[2;37m" ++ c!"# " ++ loc
      ++ (match targetOf package r with
        | none => []
        | some t => ' ' :: t.toString)
      ++ v ++ colored o.color reset ++ c!"\n"

/-- bant/frontend/parsed-project.cc:275-306, the callback: what is written for one rule. -/
def printRule (o : Options) (pattern : BazelPattern) (package : BazelPackage) (loc : Str)
    (r : Result) : Option Str :=
  if wanted pattern package r then
    match comment o package loc r, printNode o.find o.color r.node with
    | some c, some (text, hit) => some (if o.find.isNone || hit then c ++ text ++ c!"\n" else [])
    | _, _ => none
  else some []

/-- The callback for all results; `k` counts them. -/
def printRules (o : Options) (pattern : BazelPattern) (package : BazelPackage) (loc : Nat → Str) :
    Nat → List Result → Option Str
  | _, [] => some []
  | k, r :: rs =>
    match printRule o pattern package (loc k) r, printRules o pattern package loc (k + 1) rs with
    | some a, some b => some (a ++ b)
    | _, _ => none

/-- bant/frontend/parsed-project.cc:268-307, the loop over the files. -/
def printProject (o : Options) (pattern : BazelPattern) : List File → Option Str
  | [] => some []
  | f :: fs =>
    if (o.onlyErrors && !f.hasErrors) || !pattern.matchPackage f.package then
      printProject o pattern fs
    else
      match findTargets true f.ast [] with
      | none => none
      | some rs =>
        match printRules o pattern f.package f.loc 0 rs, printProject o pattern fs with
        | some a, some b => some (a ++ b)
        | _, _ => none

end Print
end Bant
