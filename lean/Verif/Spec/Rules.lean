import Verif.Model.Query

/-! Specification of what is reported about the rules of a BUILD file (C47). -/
namespace Bant
namespace Rules
open Query

mutual
/-- Function calls that are not part of an assignment or of another call, in document order. -/
def sites : Node → List (Node × Node)
  | .null => []
  | .str _ _ _ => []
  | .int _ _ => []
  | .ident _ => []
  | .unary _ e => sites e
  | .binop _ a b => sites a ++ sites b
  | .list _ xs => sitesIn xs
  | .compr _ e => sites e
  | .ternary a b c => sites a ++ sites b ++ sites c
  | .assign _ _ => []
  | .call f args => [(f, args)]
def sitesIn : List Node → List (Node × Node)
  | [] => []
  | x :: xs => sites x ++ sitesIn xs
end

mutual
/-- All function calls, in document order. -/
def calls : Node → List (Node × Node)
  | .null => []
  | .str _ _ _ => []
  | .int _ _ => []
  | .ident _ => []
  | .unary _ e => calls e
  | .binop _ a b => calls a ++ calls b
  | .list _ xs => callsIn xs
  | .compr _ e => calls e
  | .ternary a b c => calls a ++ calls b ++ calls c
  | .assign a b => calls a ++ calls b
  | .call f args => (f, args) :: calls args
def callsIn : List Node → List (Node × Node)
  | [] => []
  | x :: xs => calls x ++ callsIn xs
end

mutual
/-- Keyword arguments below a node, also those of calls below it; in document order. -/
def kwArgs : Node → List (Node × Node)
  | .null => []
  | .str _ _ _ => []
  | .int _ _ => []
  | .ident _ => []
  | .unary _ e => kwArgs e
  | .binop _ a b => kwArgs a ++ kwArgs b
  | .list _ xs => kwArgsIn xs
  | .compr _ e => kwArgs e
  | .ternary a b c => kwArgs a ++ kwArgs b ++ kwArgs c
  | .assign l v => [(l, v)]
  | .call _ args => kwArgs args
def kwArgsIn : List Node → List (Node × Node)
  | [] => []
  | x :: xs => kwArgs x ++ kwArgsIn xs
end

/-- The keyword arguments of a call itself. -/
def ownKeywords (args : List Node) : List (Node × Node) :=
  args.filterMap fun
    | .assign l v => some (l, v)
    | _ => none

/-- The value of the last keyword argument `key` that is of the kind selected by `f`. -/
def last {α : Type} (key : Str) (f : Node → Option α) (kws : List (Node × Node)) : Option α :=
  kws.reverse.findSome? fun kw =>
    match kw.1 with
    | .ident k => if k = key then f kw.2 else none
    | _ => none

/-- Strings and numbers. -/
def text : Node → Option Str
  | .str t _ _ => some t
  | .int rep _ => some rep
  | _ => none

/-- Lists. -/
def listOf : Node → Option ListRef
  | .list ty xs => some (ty, xs)
  | _ => none

/-- Truth values: numbers other than 0 and `True`. -/
def truth : Node → Option Bool
  | .str _ _ _ => some false
  | .int _ v => some (v != 0)
  | .ident i => some (i = c!"True")
  | _ => none

/-- What is reported about the call `fn(args)` with keyword arguments `kws`, where the package
has default visibility `vis`. A library without known headers counts as always linked. -/
def attributes (vis : Option ListRef) (fn : Str) (args : Node) (kws : List (Node × Node)) : Result where
  node := .call (.ident fn) args
  rule := fn
  name := (last c!"name" text kws).getD []
  actual := (last c!"actual" text kws).getD []
  version := (last c!"version" text kws).getD []
  repoName := (last c!"repo_name" text kws).getD []
  deprecation := (last c!"deprecation" text kws).getD []
  srcs := last c!"srcs" listOf kws
  hdrs := last c!"hdrs" listOf kws
  textualHdrs := last c!"textual_hdrs" listOf kws
  publicHdrs := last c!"public_hdrs" listOf kws
  deps := last c!"deps" listOf kws
  outs := last c!"outs" listOf kws
  visibility := (last c!"visibility" listOf kws).or vis
  includes := last c!"includes" listOf kws
  includePrefix := (last c!"include_prefix" text kws).getD []
  stripIncludePrefix := (last c!"strip_include_prefix" text kws).getD []
  alwayslink := (last c!"alwayslink" truth kws).getD false ||
    (fn = c!"cc_library" && (match last c!"hdrs" listOf kws with
      | none => true
      | some l => l.2 = []))
  testonly := (last c!"testonly" truth kws).getD false
  hasActual := (last c!"actual" text kws).isSome

/-- What is to be reported for the calls of a file. `kwOf` are the keyword arguments of a call,
`vis` the default visibility so far. -/
def report (kwOf : List Node → List (Node × Node)) (rules : List Str) (allowEmpty : Bool) :
    Option ListRef → List (Node × Node) → List Result
  | _, [] => []
  | vis, (.ident fn, .list ty args) :: rest =>
    if fn = c!"package" then
      report kwOf rules allowEmpty ((last c!"default_visibility" listOf (kwOf args)).or vis) rest
    else if (rules = [] ∨ fn ∈ rules) ∧
        (allowEmpty ∨ (attributes vis fn (.list ty args) (kwOf args)).name ≠ []) then
      attributes vis fn (.list ty args) (kwOf args) :: report kwOf rules allowEmpty vis rest
    else report kwOf rules allowEmpty vis rest
  | vis, _ :: rest => report kwOf rules allowEmpty vis rest

/-- A call of a named function with an argument list. -/
def Proper (site : Node × Node) : Prop := ∃ fn ty args, site = (.ident fn, .list ty args)

end Rules
end Bant
