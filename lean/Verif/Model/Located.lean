import Verif.Model.Elab
import Verif.Model.Parser
import Verif.Model.Query
import Verif.Model.Project

/-!
Where the texts in a tree come from.

In C++ the texts in the syntax tree are `string_view`s, whose address tells the location. The other
models only have the content of these texts. Here are the same functions with the places: the parser
(bant/frontend/parser.cc), the elaborator (bant/frontend/elaboration.cc) and the search for rules
(bant/explore/query-utils.cc). That they are the same functions is proved (`Verif.Lemmas.Located*`): without
the places, the result is that of `Verif.Model.Parser`, `Verif.Model.Elab` and `Verif.Model.Query`.
-/
namespace Bant
namespace Located
open Parser (P peek next errAt hasError fail Elem isBinOp endTokenFor PState initState enoughFuel)

/-- Where the characters of a `string_view` are. `file pos`: in the content of the file, at that offset.
`made b e`: in the arena, put there by the elaborator and registered with the location that the range from `b`
to `e` of the file has (bant/frontend/elaboration.cc:150-153, 222-231). `nowhere`: a `string_view` that has not
been set. -/
inductive Place where
  | nowhere
  | file (pos : Nat)
  | made (b e : Nat)
deriving DecidableEq, Repr

/-- A `std::string_view`. -/
structure View where
  text : Str := []
  place : Place := .nowhere
deriving DecidableEq, Repr

/-- `Node` (bant/frontend/ast.h:48-313) with the places of its texts; a `BinOpNode` has a range of the file
(:198, `source_range`). The one of an `Assignment` is never asked for and left out. -/
inductive Tree where
  | null
  | str (text : View) (triple raw : Bool)
  | int (rep : View) (value : Int)
  | ident (id : View)
  | unary (op : TokenType) (node : Tree)
  | binop (op : TokenType) (range : Nat × Nat) (left right : Tree)
  | list (ty : ListType) (elems : List Tree)
  | compr (ty : ListType) (forNode : Tree)
  | ternary (cond pos neg : Tree)
  | assign (lhs rhs : Tree)
  | call (fn args : Tree)
deriving Repr, Inhabited

mutual
/-- The tree without places. -/
def Tree.plain : Tree → Node
  | .null => .null
  | .str v t r => .str v.text t r
  | .int v n => .int v.text n
  | .ident v => .ident v.text
  | .unary op n => .unary op n.plain
  | .binop op _ l r => .binop op l.plain r.plain
  | .list ty xs => .list ty (plains xs)
  | .compr ty f => .compr ty f.plain
  | .ternary c p n => .ternary c.plain p.plain n.plain
  | .assign l r => .assign l.plain r.plain
  | .call f a => .call f.plain a.plain
def plains : List Tree → List Node
  | [] => []
  | x :: xs => x.plain :: plains xs
end

/-- `node == nullptr` -/
def Tree.isNull : Tree → Bool
  | .null => true
  | _ => false

/-- bant/frontend/ast.h:53 with :134, `CastAsIdentifier` is not null. -/
def Tree.isIdent : Tree → Bool
  | .ident _ => true
  | _ => false

/-! ### The parser -/

/-- The text of a token, in the file. -/
def viewOf (t : Token) : View := ⟨t.text, .file t.start⟩

/-- The range of a token. -/
def span (t : Token) : Nat × Nat := (t.start, t.start + t.text.length)

/-- bant/frontend/ast.cc:28-50, `IntScalar::FromLiteral` of the text of a token. -/
def intOf (t : Token) : Option Tree :=
  match intFromLiteral t.text with
  | some (.int rep v) => some (.int ⟨rep, .file t.start⟩ v)
  | _ => none

/-- bant/frontend/ast.cc:52-74, `StringScalar::FromLiteral` of the text of a token: after the `r` and the
quotes. -/
def strOf (t : Token) : Option Tree :=
  match strFromLiteral t.text with
  | some (.str text triple raw) =>
    some (.str ⟨text, .file (t.start + (if raw then 1 else 0) + (if triple then 3 else 1))⟩ triple raw)
  | _ => none

/-- The recursive calls, as `Parser.Call`. -/
inductive Call where
  /-- `ParseExpression(can_be_optional)` -/
  | expression (opt : Bool)
  /-- the `for (;;)` in `ParseExpression` -/
  | suffix (n : Tree)
  /-- `ParseIfElse(if_branch)` -/
  | ifElse (n : Tree)
  /-- `ParseArrayOrSliceAccess()` -/
  | arrayAccess
  /-- `ParseValueOrIdentifier(can_be_optional)` -/
  | value (opt : Bool)
  /-- `ParseParenExpressionOrTuple()` -/
  | paren
  /-- the `for (;;)` in `ParseParenExpressionOrTuple`, with the elements so far -/
  | tupleRest (acc : List Tree)
  /-- `ParseListOrListComprehension(type, element_parser)` -/
  | listOrCompr (ty : ListType) (e : Elem)
  /-- `ParseList`, or the next round of its loop, with type and elements of `result` -/
  | list (ty : ListType) (acc : List Tree) (e : Elem) (endTok : TokenType)
  /-- a call of `element_parse` -/
  | elem (e : Elem)
  /-- `ParseFunCall(identifier)` -/
  | funCall (name : View)
  /-- the `while` in `ParseComprehensionFor`: `for_tree` and `iterate_target` -/
  | comprFor (tree target : Tree) (endTok : TokenType)
  /-- the `while` in `parse`, with the statements so far -/
  | statements (acc : List Tree)

section
variable (call : Call → P Tree)

/-- bant/frontend/parser.cc:293-307: the first part of `ParseExpression`. -/
def parseExpression (opt : Bool) : P Tree := do
  let t ← peek
  if t.type = .op '-' ∨ t.type = .op '!' then
    let tok ← next
    let e ← call (.expression opt)
    call (.suffix (.unary tok.type e))
  else if t.type = .op '(' then
    let n ← call .paren
    if n.isNull then pure .null else call (.suffix n)
  else
    let n ← call (.value opt)
    if n.isNull then pure .null else call (.suffix n)

/-- bant/frontend/parser.cc:309-349: one round of the loop in `ParseExpression`. -/
def parseSuffix (n : Tree) : P Tree := do
  let upcoming ← peek
  if upcoming.type = .kIf then call (.ifElse n)
  else if isBinOp upcoming.type then
    let op ← next
    let r ← call (.expression false)
    pure (.binop op.type (span op) n r)
  else if upcoming.type = .op '[' then
    if upcoming.newlineSinceLast then pure n
    else
      let op ← next
      let a ← call .arrayAccess
      call (.suffix (.binop op.type (span op) n a))
  else pure n

/-- bant/frontend/parser.cc:216-229, `ParseIfElse` -/
def parseIfElse (n : Tree) : P Tree := do
  let tok ← next
  if tok.type ≠ .kIf then fail
  else
    let cond ← call (.expression false)
    let t ← peek
    if t.type = .kElse then
      let _ ← next
      let neg ← call (.expression false)
      pure (.ternary cond n neg)
    else pure (.ternary cond n .null)

/-- bant/frontend/parser.cc:231-259, `ParseArrayOrSliceAccess` -/
def parseArrayAccess : P Tree := do
  let n ← call (.expression true)
  let sep ← next
  if sep.type = .op ']' then
    if n.isNull then
      errAt sep .emptyAccess
      pure n
    else pure n
  else if sep.type = .op ':' then
    let rhs ← call (.expression true)
    let e ← next
    if e.type ≠ .op ']' then
      errAt e .closingAccess
      pure .null
    else if n.isNull && rhs.isNull then
      errAt e .emptySlice
      pure .null
    else pure (.binop (.op ':') (span sep) n rhs)
  else
    errAt sep .accessSeparator
    pure .null

/-- bant/frontend/parser.cc:261-291, `ParseValueOrIdentifier` -/
def parseValue (opt : Bool) : P Tree := do
  let t ← peek
  if t.type = .stringLiteral then
    let tok ← next
    match strOf tok with
    | some n => pure n
    | none => fail
  else if t.type = .numberLiteral then
    let tok ← next
    match intOf tok with   -- :393-400, ParseIntFromToken
    | some n => pure n
    | none => do
      errAt tok .intLiteral
      pure .null
  else if t.type = .identifier then
    let _ ← next
    let p ← peek
    if p.type = .op '(' then
      let _ ← next
      call (.funCall (viewOf t))
    else pure (.ident (viewOf t))
  else if t.type = .op '[' then
    let _ ← next
    call (.listOrCompr .list .expression)
  else if t.type = .op '{' then
    let _ ← next
    call (.listOrCompr .map .mapTuple)
  else if opt then pure .null
  else
    errAt t .value
    pure .null

/-- bant/frontend/parser.cc:352-375: `ParseParenExpressionOrTuple` up to its loop. -/
def parseParen : P Tree := do
  let p ← next
  if p.type ≠ .op '(' then fail
  else
    let exp ← call (.expression true)
    let p ← peek
    if !exp.isNull && p.type = .op ')' then
      let _ ← next
      pure exp
    else if exp.isNull then
      let p ← next
      if p.type ≠ .op ')' then
        errAt p .emptyTuple
        pure (.list .tuple [])
      else pure (.list .tuple [])
    else call (.tupleRest [exp])

/-- bant/frontend/parser.cc:377-391: one round of the loop. -/
def parseTupleRest (acc : List Tree) : P Tree := do
  let sep ← next
  if sep.type = .op ')' then pure (.list .tuple acc)
  else if sep.type ≠ .op ',' then
    errAt sep .tupleSeparator
    pure (.list .tuple acc)
  else
    let t ← peek
    if t.type = .op ')' then
      let _ ← next
      pure (.list .tuple acc)
    else
      let e ← call (.expression false)
      call (.tupleRest (acc ++ [e]))

/-- bant/frontend/parser.cc:416-457, `ParseListOrListComprehension`, with
`ParseListComprehension` (:530-537). -/
def parseListOrCompr (ty : ListType) (e : Elem) : P Tree := do
  let upcoming ← peek
  if upcoming.type = endTokenFor ty then
    let _ ← next
    pure (.list ty [])
  else
    let first ← call (.elem e)
    if first.isNull then pure .null
    else
      let tok ← peek
      if tok.type = .kFor then
        let f ← call (.comprFor .null first (endTokenFor ty))
        pure (.compr ty f)
      else if tok.type = .op ',' then
        let _ ← next
        call (.list ty [first] e (endTokenFor ty))
      else if tok.type ≠ endTokenFor ty then
        let t ← peek
        errAt t (.listStart (endTokenFor ty))
        call (.list ty [first] e (endTokenFor ty))
      else call (.list ty [first] e (endTokenFor ty))

/-- bant/frontend/parser.cc:186-205, `ParseList`: one round of its loop. -/
def parseList (ty : ListType) (acc : List Tree) (e : Elem) (endTok : TokenType) : P Tree := do
  let upcoming ← peek
  if upcoming.type = endTok then
    let _ ← next
    pure (.list ty acc)
  else
    let x ← call (.elem e)
    let upcoming ← peek
    if upcoming.type = .op ',' then
      let _ ← next
      call (.list ty (acc ++ [x]) e endTok)
    else if upcoming.type ≠ endTok then
      let t ← next
      errAt t (.listSeparator endTok)
      pure (.list ty (acc ++ [x]))
    else
      let _ ← next
      pure (.list ty (acc ++ [x]))

/-- bant/frontend/parser.cc:171-181, `ExpressionOrAssignment`, with `ParseIdAssignRhs` and
`ParseNodeAssignRhs` (:155-169). -/
def expressionOrAssignment : P Tree := do
  let value ← call (.expression false)
  if value.isNull then pure .null
  else
    let upcoming ← peek
    if value.isIdent ∧ upcoming.type = .op '=' then
      let _ ← next
      let rhs ← call (.expression false)
      pure (.assign value rhs)
    else pure value

/-- bant/frontend/parser.cc:402-413, `ParseMapTuple` -/
def parseMapTuple : P Tree := do
  let lhs ← call (.expression false)
  let sep ← next
  if sep.type ≠ .op ':' then
    errAt sep .mapSeparator
    pure .null
  else
    let rhs ← call (.expression false)
    pure (.binop (.op ':') (span sep) lhs rhs)

/-- bant/frontend/parser.cc:460-467, `ParseOptionalIdentifier` -/
def parseOptionalIdentifier : P Tree := do
  let t ← peek
  if t.type = .identifier then
    let tok ← next
    pure (.ident (viewOf tok))
  else pure .null

/-- The `element_parse` functions. -/
def parseElem : Elem → P Tree
  | .expression => call (.expression false)
  | .expressionOrAssignment => expressionOrAssignment call
  | .mapTuple => parseMapTuple call
  | .optionalIdentifier => parseOptionalIdentifier

/-- bant/frontend/parser.cc:207-214, `ParseFunCall` -/
def parseFunCall (name : View) : P Tree := do
  let args ← call (.list .tuple [] .expressionOrAssignment (.op ')'))
  pure (.call (.ident name) args)

/-- bant/frontend/parser.cc:473-519, `ParseComprehensionFor`: one round of its loop.
`ParseComprehensionFor(target)` is `comprFor null target`. -/
def parseComprFor (tree target : Tree) (endTok : TokenType) : P Tree := do
  let t ← peek
  if t.type = .kFor then
    let start ← next
    let p ← peek
    if p.type = .op '(' then
      let _ ← next
      let vars ← call (.list .tuple [] .optionalIdentifier (.op ')'))
      let expectedIn ← next
      if expectedIn.type ≠ .kIn then errAt expectedIn .expectedIn else pure ()
      let values ← call (.expression false)
      let after ← peek
      let f := Tree.binop .kFor (span start) target
        (.binop .kIn (start.start + start.text.length, after.start) vars values)
      call (.comprFor f f endTok)
    else
      let vars ← call (.list .tuple [] .optionalIdentifier .kIn)
      let values ← call (.expression false)
      let after ← peek
      let f := Tree.binop .kFor (span start) target
        (.binop .kIn (start.start + start.text.length, after.start) vars values)
      call (.comprFor f f endTok)
  else
    let e ← next
    if e.type ≠ endTok then
      errAt e (.comprehensionEnd endTok)
      pure .null
    else pure tree

/-- bant/frontend/parser.cc:85-153, `parse`: one round of its loop. (`ParseList` does not
return null, so :107-110 is not reachable.) -/
def parseStatements (acc : List Tree) : P Tree := do
  let err ← hasError
  if err then pure (.list .list acc)
  else
    let tok ← next
    if tok.type = .eof then pure (.list .list acc)
    else if tok.type = .stringLiteral then call (.statements acc)
    else if tok.type = .op '[' then
      let n ← call (.listOrCompr .list .expression)
      call (.statements (acc ++ [n]))
    else if tok.type = .op '(' then
      let lhs ← call (.list .tuple [] .optionalIdentifier (.op ')'))
      let assign ← next
      if assign.type ≠ .op '=' then
        errAt assign .assignment
        pure (.list .list acc)
      else
        let rhs ← call (.expression false)
        call (.statements (acc ++ [.assign lhs rhs]))
    else if tok.type ≠ .identifier then
      errAt tok .identifier
      pure (.list .list acc)
    else
      let afterId ← next
      if afterId.type = .op '=' then
        let rhs ← call (.expression false)
        call (.statements (acc ++ [.assign (.ident (viewOf tok)) rhs]))
      else if afterId.type = .op '(' then
        let n ← call (.funCall (viewOf tok))
        call (.statements (acc ++ [n]))
      else if afterId.type = .op '.' then
        let rhs ← call (.expression false)
        call (.statements (acc ++ [.binop (.op '.') (span afterId) (.ident (viewOf tok)) rhs]))
      else
        errAt afterId .statement
        pure (.list .list acc)

/-- All functions. -/
def body : Call → P Tree
  | .expression opt => parseExpression call opt
  | .suffix n => parseSuffix call n
  | .ifElse n => parseIfElse call n
  | .arrayAccess => parseArrayAccess call
  | .value opt => parseValue call opt
  | .paren => parseParen call
  | .tupleRest acc => parseTupleRest call acc
  | .listOrCompr ty e => parseListOrCompr call ty e
  | .list ty acc e endTok => parseList call ty acc e endTok
  | .elem e => parseElem call e
  | .funCall name => parseFunCall call name
  | .comprFor tree target endTok => parseComprFor call tree target endTok
  | .statements acc => parseStatements call acc

end

/-- The parser with bounded call depth. -/
def run : Nat → Call → P Tree
  | 0, _ => fail
  | n + 1, c => body (run n) c

/-- bant/frontend/parser.cc:565, `Parser::parse`, for a file content: the tree with places. -/
def parseFile (content : Str) : Option (Tree × PState) :=
  run (enoughFuel (initState content).toks.length) (.statements []) (initState content)

/-! ### The elaborator -/

/-- bant/explore/query-utils.cc:191-200, `AppendStringList` for a non-null list. -/
def strings : List Tree → Option (List View)
  | [] => some []
  | .null :: _ => none
  | .str v _ _ :: xs => if v.text = [] then strings xs else (strings xs).map (v :: ·)
  | .int v _ :: xs => if v.text = [] then strings xs else (strings xs).map (v :: ·)
  | _ :: xs => strings xs

/-- A text that was made at that place; its location is that of the range. -/
def remade (b e : Nat) : Node → Tree
  | .str t tr r => .str ⟨t, .made b e⟩ tr r
  | _ => .null

/-- The place of what is made by the function that is called like this. -/
def View.range (v : View) : Nat × Nat :=
  match v.place with
  | .file pos => (pos, pos + v.text.length)
  | .made b e => (b, e)
  | .nowhere => (0, 0)

/-- bant/frontend/elaboration.cc:174-231, `HandleGlob`: the files that are found have the location of the name of
the function (:222-229). -/
def handleGlob (glob : Elab.GlobFn) (id : View) (args : List Tree) : Option Tree :=
  match Elab.handleGlob glob (plains args) with
  | some (.list ty files) => some (.list ty (files.map (remade id.range.1 id.range.2)))
  | _ => none

/-- bant/frontend/elaboration.cc:162-169: the loop over the entries of a map. `some none`:
nothing found. -/
def selectEntry : List Tree → Option (Option Tree)
  | [] => some none
  | .null :: _ => none
  | .binop op _ key value :: rest =>
    if op = .op ':' then
      if key.isNull then none
      else if Elab.isDefaultCondition key.plain then some (some value)
      else selectEntry rest
    else selectEntry rest
  | _ :: rest => selectEntry rest

/-- bant/frontend/elaboration.cc:158-172, `HandleSelect`: loop over the arguments. -/
def selectArgs : List Tree → Option (Option Tree)
  | [] => some none
  | .null :: _ => none
  | .list .map entries :: rest =>
    match selectEntry entries with
    | none => none
    | some (some v) => some (some v)
    | some none => selectArgs rest
  | _ :: rest => selectArgs rest

/-- bant/frontend/elaboration.cc:102-124 (with `ConcatLists`, `ConcatStrings`): what becomes
of a `+` whose sides have been elaborated. New strings have the location of the operator (:119). -/
def plus (range : Nat × Nat) (l r : Tree) : Option Tree :=
  if l.isNull || r.isNull then none
  else
    match l, r with
    | .list ty xs, .list ty' ys =>
      if ty = ty' then some (.list ty (xs ++ ys)) else some (.binop (.op '+') range l r)
    | .list _ _, _ => some l
    | _, .list _ _ => some r
    | .str a _ _, .str b _ _ => some (.str ⟨a.text ++ b.text, .made range.1 range.2⟩ false false)
    | _, _ => some (.binop (.op '+') range l r)

/-- `global_variables_`; the first entry for a name counts. -/
abbrev Vars := List (Str × Tree)

def Vars.find (vars : Vars) (id : Str) : Option Tree := (vars.find? fun v => v.1 = id).map (·.2)

/-- bant/frontend/elaboration.cc:61-73, the end of `VisitFunCall`: `fn` and `args` are the
elaborated function identifier and argument. -/
def finishCall (glob : Elab.GlobFn) (fn args : Tree) : Option Tree :=
  match fn with
  | .ident name =>
    if name.text = c!"glob" then
      match args with
      | .list _ xs => handleGlob glob name xs
      | _ => none
    else if name.text = c!"select" then
      match args with
      | .list _ xs =>
        match selectArgs xs with
        | none => none
        | some (some v) => some v
        | some none => some (.call fn args)
      | _ => none
    else some (.call fn args)
  | _ => none      -- `static_cast<Identifier *>` of something else

/-- bant/frontend/ast.h:417-425: only a `BinOpNode` is stored back. Something else is never
the result for the nodes a comprehension has (see the proofs). -/
def finishCompr (ty : ListType) : Tree → Option Tree
  | .null => some (.compr ty .null)
  | .binop op range a b => some (.compr ty (.binop op range a b))
  | .assign a b => some (.compr ty (.assign a b))
  | _ => none

mutual
/-- bant/frontend/elaboration.cc:61-124, the `Visit..` functions, by type of node, with
`WalkNonNull` (ast.h:380). `nest` is `nest_level_`. -/
def walk (glob : Elab.GlobFn) (nest : Nat) (vars : Vars) : Tree → Option (Tree × Vars)
  | .null => some (.null, vars)
  | .str t tr r => some (.str t tr r, vars)
  | .int rep v => some (.int rep v, vars)
  | .ident i => some ((vars.find i.text).getD (.ident i), vars)
  | .unary op e =>
    match walk glob nest vars e with
    | none => none
    | some (e', vars) => some (.unary op e', vars)
  | .binop op range l r =>
    match walk glob nest vars l with
    | none => none
    | some (l', vars) =>
      match walk glob nest vars r with
      | none => none
      | some (r', vars) =>
        if op = .op '+' then
          match plus range l' r' with
          | none => none
          | some n => some (n, vars)
        else some (.binop op range l' r', vars)
  | .list ty xs =>
    match walks glob nest vars xs with
    | none => none
    | some (xs', vars) => some (.list ty xs', vars)
  | .compr ty f =>
    match walk glob nest vars f with
    | none => none
    | some (f', vars) =>
      match finishCompr ty f' with
      | none => none
      | some n => some (n, vars)
  | .ternary c p n =>
    match walk glob nest vars c with
    | none => none
    | some (c', vars) =>
      match walk glob nest vars p with
      | none => none
      | some (p', vars) =>
        match walk glob nest vars n with
        | none => none
        | some (n', vars) => some (.ternary c' p' n', vars)
  | .assign l r =>
    match walk glob nest vars r with
    | none => none
    | some (r', vars) =>
      match l with
      | .ident i => some (.assign l r', if nest = 0 then (i.text, r') :: vars else vars)
      | _ => some (.assign l r', vars)
  | .call fn args =>
    match walk glob (nest + 1) vars fn with
    | none => none
    | some (fn', vars) =>
      match walk glob (nest + 1) vars args with
      | none => none
      | some (args', vars) =>
        match finishCall glob fn' args' with
        | none => none
        | some n => some (n, vars)
/-- Elements of a list, in order. -/
def walks (glob : Elab.GlobFn) (nest : Nat) (vars : Vars) : List Tree → Option (List Tree × Vars)
  | [] => some ([], vars)
  | x :: xs =>
    match walk glob nest vars x with
    | none => none
    | some (x', vars) =>
      match walks glob nest vars xs with
      | none => none
      | some (xs', vars) => some (x' :: xs', vars)
end

/-- bant/frontend/elaboration.cc:288-293, `Elaborate` for the tree of a file. -/
def elabFile (glob : Elab.GlobFn) (ast : Tree) : Option Tree :=
  (walk glob 0 [] ast).map (·.1)

/-! ### The search for rules -/

/-- A `List *` that is not null. -/
abbrev ListRef := ListType × List Tree

/-- bant/explore/query-utils.h:33-53, `Result`; the places are kept for what is ever asked for: the name, and texts in lists. -/
structure Rule where
  node : Tree := .null
  rule : Str := []
  name : View := {}
  actual : Str := []
  version : Str := []
  repoName : Str := []
  deprecation : Str := []
  srcs : Option ListRef := none
  hdrs : Option ListRef := none
  textualHdrs : Option ListRef := none
  publicHdrs : Option ListRef := none
  deps : Option ListRef := none
  outs : Option ListRef := none
  visibility : Option ListRef := none
  includes : Option ListRef := none
  includePrefix : Str := []
  stripIncludePrefix : Str := []
  alwayslink : Bool := false
  testonly : Bool := false
  hasActual : Bool := false

/-- bant/explore/query-utils.cc:90-109: value is a `Scalar` with the given text and number. -/
def setScalar (r : Rule) (lhs : Str) (text : View) (num : Int) : Rule :=
  if lhs = c!"name" then { r with name := text }
  else if lhs = c!"alwayslink" then { r with alwayslink := num != 0 }
  else if lhs = c!"testonly" then { r with testonly := num != 0 }
  else if lhs = c!"include_prefix" then { r with includePrefix := text.text }
  else if lhs = c!"strip_include_prefix" then { r with stripIncludePrefix := text.text }
  else if lhs = c!"version" then { r with version := text.text }
  else if lhs = c!"repo_name" then { r with repoName := text.text }
  else if lhs = c!"actual" then { r with actual := text.text, hasActual := true }
  else if lhs = c!"deprecation" then { r with deprecation := text.text }
  else r

/-- bant/explore/query-utils.cc:110-127: value is a `List`. -/
def setList (r : Rule) (lhs : Str) (l : ListRef) : Rule :=
  if lhs = c!"hdrs" then { r with hdrs := some l }
  else if lhs = c!"srcs" then { r with srcs := some l }
  else if lhs = c!"deps" then { r with deps := some l }
  else if lhs = c!"includes" then { r with includes := some l }
  else if lhs = c!"outs" then { r with outs := some l }
  else if lhs = c!"visibility" then { r with visibility := some l }
  else if lhs = c!"textual_hdrs" then { r with textualHdrs := some l }
  else if lhs = c!"public_hdrs" then { r with publicHdrs := some l }
  else r

/-- bant/explore/query-utils.cc:128-137: value is an `Identifier`. -/
def setIdent (r : Rule) (lhs : Str) (id : Str) : Rule :=
  if lhs = c!"alwayslink" then { r with alwayslink := id = c!"True" }
  else if lhs = c!"testonly" then { r with testonly := id = c!"True" }
  else r

/-- bant/explore/query-utils.cc:87-138, `ExtractQueryInfo`. The number of a string is 0
(ast.h:76). -/
def extractQueryInfo (r : Rule) (lhs value : Tree) : Rule :=
  match lhs with
  | .ident l =>
    match value with
    | .str t _ _ => setScalar r l.text t 0
    | .int rep v => setScalar r l.text rep v
    | .list ty xs => setList r l.text (ty, xs)
    | .ident i => setIdent r l.text i.text
    | _ => r
  | _ => r

/-- bant/explore/query-utils.cc:76-84, `ExtractPackageInfo`. -/
def extractPackageInfo (vis : Option ListRef) (lhs value : Tree) : Option ListRef :=
  match lhs with
  | .ident l =>
    match value with
    | .list ty xs => if l.text = c!"default_visibility" then some (ty, xs) else vis
    | _ => vis
  | _ => vis

/-- Members of `TargetFinder` (query-utils.cc:163-176); `found`: the results the callback has
been called with. -/
structure Finder where
  defaultVisibility : Option ListRef := none
  current : Rule := {}
  relevancy : Query.Relevancy := .notRelevant
  found : List Rule := []

/-- bant/explore/query-utils.cc:146-147: no headers known. -/
def noHdrs (r : Rule) : Bool :=
  match r.hdrs with
  | none => true
  | some (_, xs) => xs.isEmpty

/-- bant/explore/query-utils.cc:140-154, `InformCaller`. -/
def informCaller (allowEmptyName : Bool) (f : Finder) : Finder :=
  if !allowEmptyName && f.current.name.text.isEmpty then f
  else
    let r := f.current
    let r := if r.rule = c!"cc_library" && noHdrs r then { r with alwayslink := true } else r
    let r := if r.visibility.isNone then { r with visibility := f.defaultVisibility } else r
    { f with current := r, found := f.found ++ [r] }

mutual
/-- The visitor (query-utils.cc:39-66 and ast.h:338-363), with `WalkNonNull`. -/
def visit (ofInterest : List Str) (allowEmpty : Bool) (f : Finder) : Tree → Option Finder
  | .null => some f
  | .str _ _ _ => some f
  | .int _ _ => some f
  | .ident _ => some f
  | .unary _ e => visit ofInterest allowEmpty f e
  | .binop _ _ a b =>
    match visit ofInterest allowEmpty f a with
    | none => none
    | some f => visit ofInterest allowEmpty f b
  | .list _ xs => visits ofInterest allowEmpty f xs
  | .compr _ e => visit ofInterest allowEmpty f e
  | .ternary a b c =>
    match visit ofInterest allowEmpty f a with
    | none => none
    | some f =>
      match visit ofInterest allowEmpty f b with
      | none => none
      | some f => visit ofInterest allowEmpty f c
  | .assign lhs value =>
    match f.relevancy with
    | .packageInfo =>
      some { f with defaultVisibility := extractPackageInfo f.defaultVisibility lhs value }
    | .userQuery => some { f with current := extractQueryInfo f.current lhs value }
    | .notRelevant => some f
  | .call fn args =>
    if f.relevancy = .notRelevant then
      match fn with
      | .ident name =>
        let rel := Query.isRelevant ofInterest name.text
        if rel = .notRelevant then some f
        else
          match args with
          | .list _ xs =>
            match visits ofInterest allowEmpty
              { f with current := { node := .call fn args, rule := name.text }, relevancy := rel } xs with
            | none => none
            | some f =>
              let f := if rel = .userQuery then informCaller allowEmpty f else f
              some { f with relevancy := .notRelevant }
          | _ => none
      | _ => none
    else visit ofInterest allowEmpty f args
def visits (ofInterest : List Str) (allowEmpty : Bool) (f : Finder) : List Tree → Option Finder
  | [] => some f
  | x :: xs =>
    match visit ofInterest allowEmpty f x with
    | none => none
    | some f => visits ofInterest allowEmpty f xs
end

/-- bant/explore/query-utils.cc:179-189, `FindTargets` and `FindTargetsAllowEmptyName`: the
results in the order of the calls of the callback. -/
def findTargets (allowEmpty : Bool) (ast : Tree) (rules : List Str) : Option (List Rule) :=
  (visit rules allowEmpty {} ast).map (·.found)

/-- bant/explore/query-utils.cc:202-206, `ExtractStringList`. -/
def stringList : Option ListRef → Option (List View)
  | none => some []
  | some (_, xs) => strings xs

/-- A list without places. -/
def plainRef (l : Option ListRef) : Option Query.ListRef := l.map fun r => (r.1, plains r.2)

/-- What was found, without places. -/
def Rule.plain (r : Rule) : Query.Result where
  node := r.node.plain
  rule := r.rule
  name := r.name.text
  actual := r.actual
  hasActual := r.hasActual
  version := r.version
  repoName := r.repoName
  deprecation := r.deprecation
  srcs := plainRef r.srcs
  hdrs := plainRef r.hdrs
  textualHdrs := plainRef r.textualHdrs
  publicHdrs := plainRef r.publicHdrs
  deps := plainRef r.deps
  outs := plainRef r.outs
  visibility := plainRef r.visibility
  includes := plainRef r.includes
  includePrefix := r.includePrefix
  stripIncludePrefix := r.stripIncludePrefix
  alwayslink := r.alwayslink
  testonly := r.testonly

/-! ### Locations -/

/-- What is known of a file with a tree (bant/frontend/named-content.h:45-75). -/
structure Source where
  name : Str
  content : Str
  lines : LineMap

/-- bant/frontend/parsed-project.cc:217-222, source-locator.cc:48-64, `Loc` of a text in the tree of a file: for a
text in the file it is the location of that, for one that was made it is the one it was registered with. `none`:
a `CHECK` fails. That the file is found by the address of the text is C24. -/
def Source.loc (s : Source) (v : View) : Option Str :=
  match v.place with
  | .nowhere => none
  | .file pos => (getLocation s.content s.lines pos (pos + v.text.length)).map fun r => s.name ++ ':' :: showRange r
  | .made b e => (getLocation s.content s.lines b e).map fun r => s.name ++ ':' :: showRange r

/-- bant/frontend/parsed-project.cc:224-230, `GetSurroundingLine` of a text in the tree of a file: a text that was
made is its own line (source-locator.h:90-92). -/
def Source.line (s : Source) (v : View) : Option Str :=
  match v.place with
  | .nowhere => none
  | .file pos =>
    (getSurroundingLine s.content pos (pos + v.text.length)).map fun r => (s.content.drop r.1).take (r.2 - r.1)
  | .made _ _ => some v.text

end Located
end Bant
