import Verif.Model.Ast

/-
Model of bant/explore/query-utils.{h,cc}: finding rules in a syntax tree, with the default
traversal of bant/frontend/ast.h:338-363 (`BaseVoidVisitor`).

`none` stands for undefined behaviour: a function call whose function is not an identifier
or whose argument is not a list (possible after elaboration only).
-/
namespace Bant
namespace Query

/-- A `List *` that is not null. -/
abbrev ListRef := ListType × List Node

/-- bant/explore/query-utils.h:33-53, `Result`. `hasActual`: `actual` has been set (`actual.data()` is not
null), which matters for what `absl::StrSplit` makes of it. -/
structure Result where
  node : Node := .null
  rule : Str := []
  name : Str := []
  actual : Str := []
  version : Str := []
  repoName : Str := []
  deprecation : Str := []
  srcs : Option ListRef := none
  hdrs : Option ListRef := none
  textualHdrs : Option ListRef := none
  publicHdrs : Option ListRef := none
  deps : Option ListRef := none
  outs : Option ListRef := none
  visibility : Option ListRef := none
  includes : Option ListRef := none
  includePrefix : Str := []
  stripIncludePrefix : Str := []
  alwayslink : Bool := false
  testonly : Bool := false
  hasActual : Bool := false

/-- bant/explore/query-utils.cc:90-109: value is a `Scalar` with the given text and number. -/
def setScalar (r : Result) (lhs : Str) (text : Str) (num : Int) : Result :=
  if lhs = c!"name" then { r with name := text }
  else if lhs = c!"alwayslink" then { r with alwayslink := num != 0 }
  else if lhs = c!"testonly" then { r with testonly := num != 0 }
  else if lhs = c!"include_prefix" then { r with includePrefix := text }
  else if lhs = c!"strip_include_prefix" then { r with stripIncludePrefix := text }
  else if lhs = c!"version" then { r with version := text }
  else if lhs = c!"repo_name" then { r with repoName := text }
  else if lhs = c!"actual" then { r with actual := text, hasActual := true }
  else if lhs = c!"deprecation" then { r with deprecation := text }
  else r

/-- bant/explore/query-utils.cc:110-127: value is a `List`. -/
def setList (r : Result) (lhs : Str) (l : ListRef) : Result :=
  if lhs = c!"hdrs" then { r with hdrs := some l }
  else if lhs = c!"srcs" then { r with srcs := some l }
  else if lhs = c!"deps" then { r with deps := some l }
  else if lhs = c!"includes" then { r with includes := some l }
  else if lhs = c!"outs" then { r with outs := some l }
  else if lhs = c!"visibility" then { r with visibility := some l }
  else if lhs = c!"textual_hdrs" then { r with textualHdrs := some l }
  else if lhs = c!"public_hdrs" then { r with publicHdrs := some l }
  else r

/-- bant/explore/query-utils.cc:128-137: value is an `Identifier`. -/
def setIdent (r : Result) (lhs : Str) (id : Str) : Result :=
  if lhs = c!"alwayslink" then { r with alwayslink := id = c!"True" }
  else if lhs = c!"testonly" then { r with testonly := id = c!"True" }
  else r

/-- bant/explore/query-utils.cc:87-138, `ExtractQueryInfo`. The number of a string is 0
(ast.h:76). -/
def extractQueryInfo (r : Result) (lhs value : Node) : Result :=
  match lhs with
  | .ident l =>
    match value with
    | .str t _ _ => setScalar r l t 0
    | .int rep v => setScalar r l rep v
    | .list ty xs => setList r l (ty, xs)
    | .ident i => setIdent r l i
    | _ => r
  | _ => r

/-- bant/explore/query-utils.cc:76-84, `ExtractPackageInfo`. -/
def extractPackageInfo (vis : Option ListRef) (lhs value : Node) : Option ListRef :=
  match lhs with
  | .ident l =>
    match value with
    | .list ty xs => if l = c!"default_visibility" then some (ty, xs) else vis
    | _ => vis
  | _ => vis

/-- bant/explore/query-utils.cc:69-73 -/
inductive Relevancy where
  | notRelevant
  | userQuery
  | packageInfo
deriving DecidableEq

/-- Members of `TargetFinder` (query-utils.cc:163-176); `found`: the results the callback has
been called with. -/
structure Finder where
  defaultVisibility : Option ListRef := none
  current : Result := {}
  relevancy : Relevancy := .notRelevant
  found : List Result := []

/-- bant/explore/query-utils.cc:156-161, `IsRelevant`. -/
def isRelevant (ofInterest : List Str) (name : Str) : Relevancy :=
  if name = c!"package" then .packageInfo
  else if ofInterest = [] then .userQuery
  else if name ∈ ofInterest then .userQuery
  else .notRelevant

/-- bant/explore/query-utils.cc:146-147: no headers known. -/
def noHdrs (r : Result) : Bool :=
  match r.hdrs with
  | none => true
  | some (_, xs) => xs.isEmpty

/-- bant/explore/query-utils.cc:140-154, `InformCaller`. -/
def informCaller (allowEmptyName : Bool) (f : Finder) : Finder :=
  if !allowEmptyName && f.current.name.isEmpty then f
  else
    let r := f.current
    let r := if r.rule = c!"cc_library" && noHdrs r then { r with alwayslink := true } else r
    let r := if r.visibility.isNone then { r with visibility := f.defaultVisibility } else r
    { f with current := r, found := f.found ++ [r] }

mutual
/-- The visitor (query-utils.cc:39-66 and ast.h:338-363), with `WalkNonNull`. -/
def visit (ofInterest : List Str) (allowEmpty : Bool) (f : Finder) : Node → Option Finder
  | .null => some f
  | .str _ _ _ => some f
  | .int _ _ => some f
  | .ident _ => some f
  | .unary _ e => visit ofInterest allowEmpty f e
  | .binop _ a b =>
    match visit ofInterest allowEmpty f a with
    | none => none
    | some f => visit ofInterest allowEmpty f b
  | .list _ xs => visits ofInterest allowEmpty f xs
  | .compr _ e => visit ofInterest allowEmpty f e
  | .ternary a b c =>
    match visit ofInterest allowEmpty f a with
    | none => none
    | some f =>
      match visit ofInterest allowEmpty f b with
      | none => none
      | some f => visit ofInterest allowEmpty f c
  | .assign lhs value =>
    match f.relevancy with
    | .packageInfo =>
      some { f with defaultVisibility := extractPackageInfo f.defaultVisibility lhs value }
    | .userQuery => some { f with current := extractQueryInfo f.current lhs value }
    | .notRelevant => some f
  | .call fn args =>
    if f.relevancy = .notRelevant then
      match fn with
      | .ident name =>
        let rel := isRelevant ofInterest name
        if rel = .notRelevant then some f
        else
          match args with
          | .list _ xs =>
            match visits ofInterest allowEmpty
              { f with current := { node := .call fn args, rule := name }, relevancy := rel } xs with
            | none => none
            | some f =>
              let f := if rel = .userQuery then informCaller allowEmpty f else f
              some { f with relevancy := .notRelevant }
          | _ => none
      | _ => none
    else visit ofInterest allowEmpty f args
def visits (ofInterest : List Str) (allowEmpty : Bool) (f : Finder) : List Node → Option Finder
  | [] => some f
  | x :: xs =>
    match visit ofInterest allowEmpty f x with
    | none => none
    | some f => visits ofInterest allowEmpty f xs
end

/-- bant/explore/query-utils.cc:179-189, `FindTargets` and `FindTargetsAllowEmptyName`: the
results in the order of the calls of the callback. -/
def findTargets (allowEmpty : Bool) (ast : Node) (rules : List Str) : Option (List Result) :=
  (visit rules allowEmpty {} ast).map (·.found)

/-- bant/explore/query-utils.cc:191-200, `AppendStringList`, the loop: the strings (and numbers,
as written) that are not empty. A missing element is dereferenced. -/
def strings : List Node → Option (List Str)
  | [] => some []
  | n :: ns =>
    match n with
    | .null => none
    | .str t _ _ => if t = [] then strings ns else (strings ns).map (t :: ·)
    | .int rep _ => if rep = [] then strings ns else (strings ns).map (rep :: ·)
    | _ => strings ns

/-- bant/explore/query-utils.cc:202-206, `ExtractStringList`. -/
def stringList : Option ListRef → Option (List Str)
  | none => some []
  | some (_, xs) => strings xs

/-- All results of a function that may be undefined. -/
def mapAll {α β : Type} (f : α → Option (List β)) : List α → Option (List β)
  | [] => some []
  | x :: xs =>
    match f x with
    | none => none
    | some ys => (mapAll f xs).map (ys ++ ·)

/-- The results of a callback of `FindTargets`; there is nothing in a tree that the callbacks
change. -/
def forTargets {β : Type} (ast : Node) (rules : List Str) (f : Result → Option (List β)) :
    Option (List β) :=
  match findTargets false ast rules with
  | none => none
  | some rs => mapAll f rs

end Query
end Bant
