import Verif.Model.Ast

/-
Model of bant/frontend/elaboration.cc, with the base class `BaseNodeReplacementVisitor`
(bant/frontend/ast.h:387-441) and the list helpers of bant/explore/query-utils.cc.

The C++ code replaces child pointers in place. Nodes are visited once (a node that came in
as the value of a variable is not visited again), and nothing is changed in a node after
its visit; so the tree that results can be described by a function. That nodes are shared
between the value of a variable and its uses is not visible to later readers.
`none` stands for undefined behaviour: use of a null pointer or of a node as a wrong type.

Not modelled: the file locations that are registered for new strings, statistics. The
search for files in `glob()` is a parameter (modelled in Model/Glob).
-/
namespace Bant
namespace Elab

/-- bant/explore/query-utils.cc:191-200, `AppendStringList` for a non-null list. -/
def stringList : List Node → Option (List Str)
  | [] => some []
  | .null :: _ => none
  | .str t _ _ :: xs => do
    let r ← stringList xs
    some (if t = [] then r else t :: r)
  | .int rep _ :: xs => do
    let r ← stringList xs
    some (if rep = [] then r else rep :: r)
  | _ :: xs => stringList xs

/-- `List*` of a node or null, then `ExtractStringList` (query-utils.cc:202-206). -/
def extractStringList : Option (List Node) → Option (List Str)
  | none => some []
  | some xs => stringList xs

/-- `node->CastAsList()`; the outer `none` is a null pointer dereference. -/
def castList : Node → Option (Option (ListType × List Node))
  | .null => none
  | .list ty xs => some (some (ty, xs))
  | _ => some none

/-- Include and exclude list in the loop over the arguments of `glob()`. -/
abbrev GlobArgs := Option (List Node) × Option (List Node)

/-- bant/frontend/elaboration.cc:178-192: extract the arguments. -/
def globArgs : List Node → GlobArgs → Option GlobArgs
  | [], g => some g
  | .null :: _, _ => none
  | .list _ xs :: rest, g => globArgs rest (some xs, g.2)
  | .assign (.ident kw) value :: rest, g =>
    if kw = c!"include" then
      match castList value with
      | none => none
      | some l => globArgs rest (l.map (·.2), g.2)
    else if kw = c!"exclude" then
      match castList value with
      | none => none
      | some l => globArgs rest (g.1, l.map (·.2))
    else globArgs rest g
  | _ :: rest, g => globArgs rest g

/-- The search for files: include and exclude patterns to the file names found. -/
abbrev GlobFn := List Str → List Str → List Str

/-- bant/frontend/elaboration.cc:174-231, `HandleGlob`. -/
def handleGlob (glob : GlobFn) (args : List Node) : Option Node := do
  let g ← globArgs args (none, none)
  let inc ← extractStringList g.1
  let exc ← extractStringList g.2
  some (.list .list ((glob inc exc).map fun f => .str f false false))

/-- `key && conditions_.contains(key->AsString())` for the only condition. -/
def isDefaultCondition : Node → Bool
  | .str t _ _ => t = c!"//conditions:default"
  | .int rep _ => rep = c!"//conditions:default"
  | _ => false

/-- bant/frontend/elaboration.cc:162-169: the loop over the entries of a map. `some none`:
nothing found. -/
def selectEntry : List Node → Option (Option Node)
  | [] => some none
  | .null :: _ => none
  | .binop op key value :: rest =>
    if op = .op ':' then
      if key.isNull then none
      else if isDefaultCondition key then some (some value)
      else selectEntry rest
    else selectEntry rest
  | _ :: rest => selectEntry rest

/-- bant/frontend/elaboration.cc:158-172, `HandleSelect`: loop over the arguments. -/
def selectArgs : List Node → Option (Option Node)
  | [] => some none
  | .null :: _ => none
  | .list .map entries :: rest =>
    match selectEntry entries with
    | none => none
    | some (some v) => some (some v)
    | some none => selectArgs rest
  | _ :: rest => selectArgs rest

/-- bant/frontend/elaboration.cc:102-124 (with `ConcatLists`, `ConcatStrings`): what becomes
of a `+` whose sides have been elaborated. -/
def plus (l r : Node) : Option Node :=
  if l.isNull || r.isNull then none
  else
    match l, r with
    | .list ty xs, .list ty' ys =>
      if ty = ty' then some (.list ty (xs ++ ys)) else some (.binop (.op '+') l r)
    | .list _ _, _ => some l
    | _, .list _ _ => some r
    | .str a _ _, .str b _ _ => some (.str (a ++ b) false false)
    | _, _ => some (.binop (.op '+') l r)

/-- `global_variables_`; the first entry for a name counts. -/
abbrev Vars := List (Str × Node)

def Vars.find (vars : Vars) (id : Str) : Option Node := (vars.find? fun v => v.1 = id).map (·.2)

/-- bant/frontend/elaboration.cc:61-73, the end of `VisitFunCall`: `fn` and `args` are the
elaborated function identifier and argument. -/
def finishCall (glob : GlobFn) (fn args : Node) : Option Node :=
  match fn with
  | .ident name =>
    if name = c!"glob" then
      match args with
      | .list _ xs => handleGlob glob xs
      | _ => none
    else if name = c!"select" then
      match args with
      | .list _ xs =>
        match selectArgs xs with
        | none => none
        | some (some v) => some v
        | some none => some (.call fn args)
      | _ => none
    else some (.call fn args)
  | _ => none      -- `static_cast<Identifier *>` of something else

/-- bant/frontend/ast.h:417-425: only a `BinOpNode` is stored back. Something else is never
the result for the nodes a comprehension has (see the proofs). -/
def finishCompr (ty : ListType) : Node → Option Node
  | .null => some (.compr ty .null)
  | .binop op a b => some (.compr ty (.binop op a b))
  | .assign a b => some (.compr ty (.assign a b))
  | _ => none

mutual
/-- bant/frontend/elaboration.cc:61-124, the `Visit..` functions, by type of node, with
`WalkNonNull` (ast.h:380). `nest` is `nest_level_`. -/
def walk (glob : GlobFn) (nest : Nat) (vars : Vars) : Node → Option (Node × Vars)
  | .null => some (.null, vars)
  | .str t tr r => some (.str t tr r, vars)
  | .int rep v => some (.int rep v, vars)
  | .ident i => some ((vars.find i).getD (.ident i), vars)
  | .unary op e =>
    match walk glob nest vars e with
    | none => none
    | some (e', vars) => some (.unary op e', vars)
  | .binop op l r =>
    match walk glob nest vars l with
    | none => none
    | some (l', vars) =>
      match walk glob nest vars r with
      | none => none
      | some (r', vars) =>
        if op = .op '+' then
          match plus l' r' with
          | none => none
          | some n => some (n, vars)
        else some (.binop op l' r', vars)
  | .list ty xs =>
    match walks glob nest vars xs with
    | none => none
    | some (xs', vars) => some (.list ty xs', vars)
  | .compr ty f =>
    match walk glob nest vars f with
    | none => none
    | some (f', vars) =>
      match finishCompr ty f' with
      | none => none
      | some n => some (n, vars)
  | .ternary c p n =>
    match walk glob nest vars c with
    | none => none
    | some (c', vars) =>
      match walk glob nest vars p with
      | none => none
      | some (p', vars) =>
        match walk glob nest vars n with
        | none => none
        | some (n', vars) => some (.ternary c' p' n', vars)
  | .assign l r =>
    match walk glob nest vars r with
    | none => none
    | some (r', vars) =>
      match l with
      | .ident i => some (.assign l r', if nest = 0 then (i, r') :: vars else vars)
      | _ => some (.assign l r', vars)
  | .call fn args =>
    match walk glob (nest + 1) vars fn with
    | none => none
    | some (fn', vars) =>
      match walk glob (nest + 1) vars args with
      | none => none
      | some (args', vars) =>
        match finishCall glob fn' args' with
        | none => none
        | some n => some (n, vars)
/-- Elements of a list, in order. -/
def walks (glob : GlobFn) (nest : Nat) (vars : Vars) : List Node → Option (List Node × Vars)
  | [] => some ([], vars)
  | x :: xs =>
    match walk glob nest vars x with
    | none => none
    | some (x', vars) =>
      match walks glob nest vars xs with
      | none => none
      | some (xs', vars) => some (x' :: xs', vars)
end

/-- bant/frontend/elaboration.cc:288-293, `Elaborate` for the tree of a file. -/
def elabFile (glob : GlobFn) (ast : Node) : Option Node :=
  (walk glob 0 [] ast).map (·.1)

end Elab
end Bant
