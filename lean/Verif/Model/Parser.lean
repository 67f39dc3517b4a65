import Verif.Model.Ast

/-
Model of bant/frontend/parser.cc, `Parser::Impl`.

Each parse function of the C++ class is one definition here. Recursive calls (and the next
round of a loop) go through the parameter `call`; `Parser.run` closes the recursion with
a fuel that bounds the call depth. `none` stands for: fuel exhausted, or a failing `assert`,
or undefined behaviour. That `none` does not happen is proved (C14).

The parser talks to the scanner with `Next` and `Peek` only. By C11 the answers are those of
a fixed sequence of tokens that is followed by end-of-file forever, which is what the state
contains.
-/
namespace Bant
namespace Parser

/-- What is written after the location and the token by the calls of `ErrAt`; the texts are in
Model/Messages. -/
inductive Complaint where
  /-- bant/frontend/parser.cc:240 -/
  | emptyAccess
  /-- bant/frontend/parser.cc:247 -/
  | closingAccess
  /-- bant/frontend/parser.cc:251 -/
  | emptySlice
  /-- bant/frontend/parser.cc:257 -/
  | accessSeparator
  /-- bant/frontend/parser.cc:397 -/
  | intLiteral
  /-- bant/frontend/parser.cc:287 -/
  | value
  /-- bant/frontend/parser.cc:371 -/
  | emptyTuple
  /-- bant/frontend/parser.cc:381 -/
  | tupleSeparator
  /-- bant/frontend/parser.cc:446 -/
  | listStart (close : TokenType)
  /-- bant/frontend/parser.cc:198 -/
  | listSeparator (close : TokenType)
  /-- bant/frontend/parser.cc:408 -/
  | mapSeparator
  /-- bant/frontend/parser.cc:493 -/
  | expectedIn
  /-- bant/frontend/parser.cc:514 -/
  | comprehensionEnd (close : TokenType)
  /-- bant/frontend/parser.cc:115 -/
  | assignment
  /-- bant/frontend/parser.cc:126 -/
  | identifier
  /-- bant/frontend/parser.cc:148 -/
  | statement
deriving DecidableEq, Repr

/-- State: the tokens still to be delivered, the end-of-file token, the tokens given to
`ErrAt` (`error_` is set iff there is one), the number of requests to the scanner made, and
how far the scanner is: how often it scanned a token and whether that is one more than taken
(`upcoming_` of scanner.h is filled). `said` is, for each token given to `ErrAt`, what is
written after it, and how often the scanner had scanned at that time. -/
structure PState where
  toks : List Token
  eof : Token
  errs : List Token
  requests : Nat
  scans : Nat
  ahead : Bool
  said : List (Complaint × Nat)
deriving DecidableEq, Repr

/-- A parser action. -/
abbrev P (α : Type) := PState → Option (α × PState)

instance : Monad P where
  pure a := fun s => some (a, s)
  bind m f := fun s => match m s with
    | some (a, s') => f a s'
    | none => none

/-- The token `Peek` shows. -/
def PState.cur (s : PState) : Token := s.toks.headD s.eof

/-- bant/frontend/scanner.h:97-103, `Peek` -/
def peek : P Token := fun s => some (s.cur, { s with
  requests := s.requests + 1, scans := if s.ahead then s.scans else s.scans + 1, ahead := true })

/-- bant/frontend/scanner.cc:254-259, `Next` -/
def next : P Token :=
  fun s => some (s.cur, { s with
    toks := s.toks.tail, requests := s.requests + 1
    scans := if s.ahead then s.scans else s.scans + 1, ahead := false })

/-- bant/frontend/parser.cc:539-543, `ErrAt`: writes a message and sets `error_`. -/
def errAt (t : Token) (m : Complaint) : P Unit :=
  fun s => some ((), { s with errs := s.errs ++ [t], said := s.said ++ [(m, s.scans)] })

/-- `parse_error()`, read in the main loop. -/
def hasError : P Bool := fun s => some (s.errs ≠ [], s)

/-- Failing `assert` or undefined behaviour. -/
def fail {α : Type} : P α := fun _ => none

/-- What is given as `element_parse` function. -/
inductive Elem where
  | expression
  | expressionOrAssignment
  | mapTuple
  | optionalIdentifier
deriving DecidableEq, Repr

/-- The recursive calls. Calls that have the name of a C++ function stand for it, the others
are loops in their state at the begin of a round. -/
inductive Call where
  /-- `ParseExpression(can_be_optional)` -/
  | expression (opt : Bool)
  /-- the `for (;;)` in `ParseExpression` -/
  | suffix (n : Node)
  /-- `ParseIfElse(if_branch)` -/
  | ifElse (n : Node)
  /-- `ParseArrayOrSliceAccess()` -/
  | arrayAccess
  /-- `ParseValueOrIdentifier(can_be_optional)` -/
  | value (opt : Bool)
  /-- `ParseParenExpressionOrTuple()` -/
  | paren
  /-- the `for (;;)` in `ParseParenExpressionOrTuple`, with the elements so far -/
  | tupleRest (acc : List Node)
  /-- `ParseListOrListComprehension(type, element_parser)` -/
  | listOrCompr (ty : ListType) (e : Elem)
  /-- `ParseList`, or the next round of its loop, with type and elements of `result` -/
  | list (ty : ListType) (acc : List Node) (e : Elem) (endTok : TokenType)
  /-- a call of `element_parse` -/
  | elem (e : Elem)
  /-- `ParseFunCall(identifier)` -/
  | funCall (name : Str)
  /-- the `while` in `ParseComprehensionFor`: `for_tree` and `iterate_target` -/
  | comprFor (tree target : Node) (endTok : TokenType)
  /-- the `while` in `parse`, with the statements so far -/
  | statements (acc : List Node)
deriving Repr

/-- bant/frontend/parser.cc:317-335: the binary operators. -/
def isBinOp : TokenType → Bool
  | .op c => c ∈ ['+', '-', '*', '/', '<', '>', '|', '.', '%']
  | .opEq c => c ∈ ['<', '=', '>', '!']
  | .kIn | .kNotIn | .kAnd | .kOr => true
  | _ => false

/-- bant/frontend/parser.cc:521-528, `EndTokenFor` -/
def endTokenFor : ListType → TokenType
  | .list => .op ']'
  | .tuple => .op ')'
  | .map => .op '}'

section
variable (call : Call → P Node)

/-- bant/frontend/parser.cc:293-307: the first part of `ParseExpression`. -/
def parseExpression (opt : Bool) : P Node := do
  let t ← peek
  if t.type = .op '-' ∨ t.type = .op '!' then
    let tok ← next
    let e ← call (.expression opt)
    call (.suffix (.unary tok.type e))
  else if t.type = .op '(' then
    let n ← call .paren
    if n.isNull then pure .null else call (.suffix n)
  else
    let n ← call (.value opt)
    if n.isNull then pure .null else call (.suffix n)

/-- bant/frontend/parser.cc:309-349: one round of the loop in `ParseExpression`. -/
def parseSuffix (n : Node) : P Node := do
  let upcoming ← peek
  if upcoming.type = .kIf then call (.ifElse n)
  else if isBinOp upcoming.type then
    let op ← next
    let r ← call (.expression false)
    pure (.binop op.type n r)
  else if upcoming.type = .op '[' then
    if upcoming.newlineSinceLast then pure n
    else
      let op ← next
      let a ← call .arrayAccess
      call (.suffix (.binop op.type n a))
  else pure n

/-- bant/frontend/parser.cc:216-229, `ParseIfElse` -/
def parseIfElse (n : Node) : P Node := do
  let tok ← next
  if tok.type ≠ .kIf then fail
  else
    let cond ← call (.expression false)
    let t ← peek
    if t.type = .kElse then
      let _ ← next
      let neg ← call (.expression false)
      pure (.ternary cond n neg)
    else pure (.ternary cond n .null)

/-- bant/frontend/parser.cc:231-259, `ParseArrayOrSliceAccess` -/
def parseArrayAccess : P Node := do
  let n ← call (.expression true)
  let sep ← next
  if sep.type = .op ']' then
    if n.isNull then
      errAt sep .emptyAccess
      pure n
    else pure n
  else if sep.type = .op ':' then
    let rhs ← call (.expression true)
    let e ← next
    if e.type ≠ .op ']' then
      errAt e .closingAccess
      pure .null
    else if n.isNull && rhs.isNull then
      errAt e .emptySlice
      pure .null
    else pure (.binop (.op ':') n rhs)
  else
    errAt sep .accessSeparator
    pure .null

/-- bant/frontend/parser.cc:261-291, `ParseValueOrIdentifier` -/
def parseValue (opt : Bool) : P Node := do
  let t ← peek
  if t.type = .stringLiteral then
    let tok ← next
    match strFromLiteral tok.text with
    | some n => pure n
    | none => fail
  else if t.type = .numberLiteral then
    let tok ← next
    match intFromLiteral tok.text with   -- :393-400, ParseIntFromToken
    | some n => pure n
    | none => do
      errAt tok .intLiteral
      pure .null
  else if t.type = .identifier then
    let _ ← next
    let p ← peek
    if p.type = .op '(' then
      let _ ← next
      call (.funCall t.text)
    else pure (.ident t.text)
  else if t.type = .op '[' then
    let _ ← next
    call (.listOrCompr .list .expression)
  else if t.type = .op '{' then
    let _ ← next
    call (.listOrCompr .map .mapTuple)
  else if opt then pure .null
  else
    errAt t .value
    pure .null

/-- bant/frontend/parser.cc:352-375: `ParseParenExpressionOrTuple` up to its loop. -/
def parseParen : P Node := do
  let p ← next
  if p.type ≠ .op '(' then fail
  else
    let exp ← call (.expression true)
    let p ← peek
    if !exp.isNull && p.type = .op ')' then
      let _ ← next
      pure exp
    else if exp.isNull then
      let p ← next
      if p.type ≠ .op ')' then
        errAt p .emptyTuple
        pure (.list .tuple [])
      else pure (.list .tuple [])
    else call (.tupleRest [exp])

/-- bant/frontend/parser.cc:377-391: one round of the loop. -/
def parseTupleRest (acc : List Node) : P Node := do
  let sep ← next
  if sep.type = .op ')' then pure (.list .tuple acc)
  else if sep.type ≠ .op ',' then
    errAt sep .tupleSeparator
    pure (.list .tuple acc)
  else
    let t ← peek
    if t.type = .op ')' then
      let _ ← next
      pure (.list .tuple acc)
    else
      let e ← call (.expression false)
      call (.tupleRest (acc ++ [e]))

/-- bant/frontend/parser.cc:416-457, `ParseListOrListComprehension`, with
`ParseListComprehension` (:530-537). -/
def parseListOrCompr (ty : ListType) (e : Elem) : P Node := do
  let upcoming ← peek
  if upcoming.type = endTokenFor ty then
    let _ ← next
    pure (.list ty [])
  else
    let first ← call (.elem e)
    if first.isNull then pure .null
    else
      let tok ← peek
      if tok.type = .kFor then
        let f ← call (.comprFor .null first (endTokenFor ty))
        pure (.compr ty f)
      else if tok.type = .op ',' then
        let _ ← next
        call (.list ty [first] e (endTokenFor ty))
      else if tok.type ≠ endTokenFor ty then
        let t ← peek
        errAt t (.listStart (endTokenFor ty))
        call (.list ty [first] e (endTokenFor ty))
      else call (.list ty [first] e (endTokenFor ty))

/-- bant/frontend/parser.cc:186-205, `ParseList`: one round of its loop. -/
def parseList (ty : ListType) (acc : List Node) (e : Elem) (endTok : TokenType) : P Node := do
  let upcoming ← peek
  if upcoming.type = endTok then
    let _ ← next
    pure (.list ty acc)
  else
    let x ← call (.elem e)
    let upcoming ← peek
    if upcoming.type = .op ',' then
      let _ ← next
      call (.list ty (acc ++ [x]) e endTok)
    else if upcoming.type ≠ endTok then
      let t ← next
      errAt t (.listSeparator endTok)
      pure (.list ty (acc ++ [x]))
    else
      let _ ← next
      pure (.list ty (acc ++ [x]))

/-- bant/frontend/parser.cc:171-181, `ExpressionOrAssignment`, with `ParseIdAssignRhs` and
`ParseNodeAssignRhs` (:155-169). -/
def expressionOrAssignment : P Node := do
  let value ← call (.expression false)
  if value.isNull then pure .null
  else
    let upcoming ← peek
    if value.asIdent ≠ none ∧ upcoming.type = .op '=' then
      let _ ← next
      let rhs ← call (.expression false)
      pure (.assign value rhs)
    else pure value

/-- bant/frontend/parser.cc:402-413, `ParseMapTuple` -/
def parseMapTuple : P Node := do
  let lhs ← call (.expression false)
  let sep ← next
  if sep.type ≠ .op ':' then
    errAt sep .mapSeparator
    pure .null
  else
    let rhs ← call (.expression false)
    pure (.binop (.op ':') lhs rhs)

/-- bant/frontend/parser.cc:460-467, `ParseOptionalIdentifier` -/
def parseOptionalIdentifier : P Node := do
  let t ← peek
  if t.type = .identifier then
    let tok ← next
    pure (.ident tok.text)
  else pure .null

/-- The `element_parse` functions. -/
def parseElem : Elem → P Node
  | .expression => call (.expression false)
  | .expressionOrAssignment => expressionOrAssignment call
  | .mapTuple => parseMapTuple call
  | .optionalIdentifier => parseOptionalIdentifier

/-- bant/frontend/parser.cc:207-214, `ParseFunCall` -/
def parseFunCall (name : Str) : P Node := do
  let args ← call (.list .tuple [] .expressionOrAssignment (.op ')'))
  pure (.call (.ident name) args)

/-- bant/frontend/parser.cc:473-519, `ParseComprehensionFor`: one round of its loop.
`ParseComprehensionFor(target)` is `comprFor null target`. -/
def parseComprFor (tree target : Node) (endTok : TokenType) : P Node := do
  let t ← peek
  if t.type = .kFor then
    let _ ← next
    let p ← peek
    if p.type = .op '(' then
      let _ ← next
      let vars ← call (.list .tuple [] .optionalIdentifier (.op ')'))
      let expectedIn ← next
      if expectedIn.type ≠ .kIn then errAt expectedIn .expectedIn else pure ()
      let values ← call (.expression false)
      let _ ← peek
      let f := Node.binop .kFor target (.binop .kIn vars values)
      call (.comprFor f f endTok)
    else
      let vars ← call (.list .tuple [] .optionalIdentifier .kIn)
      let values ← call (.expression false)
      let _ ← peek
      let f := Node.binop .kFor target (.binop .kIn vars values)
      call (.comprFor f f endTok)
  else
    let e ← next
    if e.type ≠ endTok then
      errAt e (.comprehensionEnd endTok)
      pure .null
    else pure tree

/-- bant/frontend/parser.cc:85-153, `parse`: one round of its loop. (`ParseList` does not
return null, so :107-110 is not reachable.) -/
def parseStatements (acc : List Node) : P Node := do
  let err ← hasError
  if err then pure (.list .list acc)
  else
    let tok ← next
    if tok.type = .eof then pure (.list .list acc)
    else if tok.type = .stringLiteral then call (.statements acc)
    else if tok.type = .op '[' then
      let n ← call (.listOrCompr .list .expression)
      call (.statements (acc ++ [n]))
    else if tok.type = .op '(' then
      let lhs ← call (.list .tuple [] .optionalIdentifier (.op ')'))
      let assign ← next
      if assign.type ≠ .op '=' then
        errAt assign .assignment
        pure (.list .list acc)
      else
        let rhs ← call (.expression false)
        call (.statements (acc ++ [.assign lhs rhs]))
    else if tok.type ≠ .identifier then
      errAt tok .identifier
      pure (.list .list acc)
    else
      let afterId ← next
      if afterId.type = .op '=' then
        let rhs ← call (.expression false)
        call (.statements (acc ++ [.assign (.ident tok.text) rhs]))
      else if afterId.type = .op '(' then
        let n ← call (.funCall tok.text)
        call (.statements (acc ++ [n]))
      else if afterId.type = .op '.' then
        let rhs ← call (.expression false)
        call (.statements (acc ++ [.binop (.op '.') (.ident tok.text) rhs]))
      else
        errAt afterId .statement
        pure (.list .list acc)

/-- All functions. -/
def body : Call → P Node
  | .expression opt => parseExpression call opt
  | .suffix n => parseSuffix call n
  | .ifElse n => parseIfElse call n
  | .arrayAccess => parseArrayAccess call
  | .value opt => parseValue call opt
  | .paren => parseParen call
  | .tupleRest acc => parseTupleRest call acc
  | .listOrCompr ty e => parseListOrCompr call ty e
  | .list ty acc e endTok => parseList call ty acc e endTok
  | .elem e => parseElem call e
  | .funCall name => parseFunCall call name
  | .comprFor tree target endTok => parseComprFor call tree target endTok
  | .statements acc => parseStatements call acc

end

/-- The parser with bounded call depth. -/
def run : Nat → Call → P Node
  | 0, _ => fail
  | n + 1, c => body (run n) c

/-- A depth that is sufficient for `k` tokens (C14). -/
def enoughFuel (k : Nat) : Nat := 8 * k + 8

/-- The tokens the scanner delivers, up to and without end-of-file. -/
def scanAll : Nat → Scanner → List Token
  | 0, _ => []
  | n + 1, s =>
    let r := Scanner.next s
    if r.1.type = .eof then [] else r.1 :: scanAll n r.2

/-- Initial state for a file content. A file has not more tokens than bytes. -/
def initState (content : Str) : PState :=
  { toks := scanAll (content.length + 1) (Scanner.init content)
    eof := ⟨.eof, content.length, [], false⟩, errs := [], requests := 0
    scans := 0, ahead := false, said := [] }

/-- bant/frontend/parser.cc:565, `Parser::parse`, for a file content: the tree and the
final state (with the errors). -/
def parseFile (content : Str) : Option (Node × PState) :=
  run (enoughFuel (initState content).toks.length) (.statements []) (initState content)

end Parser
end Bant
