import Verif.Model.Scanner

/-
Model of bant/frontend/ast.{h,cc}.

Nodes are pointers in C++; `Node.null` is the null pointer. The texts are `string_view`s
into the file; only their content is modelled (which piece of the file a token is: see
Scanner). The visitors are modelled in the files of their users.
-/
namespace Bant

/-- bant/frontend/ast.h:214, `List::Type` -/
inductive ListType where
  | list
  | map
  | tuple
deriving DecidableEq, Repr

/-- bant/frontend/ast.h:48-313, the class hierarchy below `Node`.
* `str text triple raw`: `StringScalar` (:90-112),
* `int rep value`: `IntScalar` (:114-128),
* `ident`: `Identifier` (:130-147), `unary`: `UnaryExpr` (:149-165),
* `binop`: `BinOpNode` (:187-209), without its approximate source range,
* `list`: `List` (:212-236), `compr`: `ListComprehension` (:239-256),
* `ternary cond pos neg`: `Ternary` (:258-276), `assign`: `Assignment` (:279-297),
* `call`: `FunCall` (:300-313), whose both sides are (after construction) arbitrary node
  pointers that are cast. -/
inductive Node where
  | null
  | str (text : Str) (triple raw : Bool)
  | int (rep : Str) (value : Int)
  | ident (id : Str)
  | unary (op : TokenType) (node : Node)
  | binop (op : TokenType) (left right : Node)
  | list (ty : ListType) (elems : List Node)
  | compr (ty : ListType) (forNode : Node)
  | ternary (cond pos neg : Node)
  | assign (lhs rhs : Node)
  | call (fn args : Node)
deriving Repr, Inhabited

namespace Node

/-- `node == nullptr` -/
def isNull : Node → Bool
  | .null => true
  | _ => false

/-- bant/frontend/ast.h:53 with :134, `CastAsIdentifier`, then `id()`. -/
def asIdent : Node → Option Str
  | .ident i => some i
  | _ => none

end Node

/-- Value of a digit; `none` if it is not a digit in that base. -/
def digitValue (base : Nat) (c : Char) : Option Nat :=
  let v :=
    if '0' ≤ c ∧ c ≤ '9' then some (c.toNat - '0'.toNat)
    else if 'a' ≤ c ∧ c ≤ 'z' then some (c.toNat - 'a'.toNat + 10)
    else if 'A' ≤ c ∧ c ≤ 'Z' then some (c.toNat - 'A'.toNat + 10)
    else none
  match v with
  | some d => if d < base then some d else none
  | none => none

/-- The longest prefix of digits, as number. -/
def digitsPrefix (base : Nat) : Nat → Str → Nat
  | acc, [] => acc
  | acc, c :: cs =>
    match digitValue base c with
    | some d => digitsPrefix base (acc * base + d) cs
    | none => acc

/-- `std::from_chars(begin, end, int64_t&, base)` for text without sign: the value of the
longest prefix that consists of digits, an error if there is no digit or if the value does
not fit. (A leading minus is accepted by `from_chars` but never part of a number token.) -/
def fromChars (base : Nat) (s : Str) : Option Int :=
  match s with
  | [] => none
  | c :: _ =>
    match digitValue base c with
    | none => none
    | some _ =>
      let v := digitsPrefix base 0 s
      if v < 2 ^ 63 then some (Int.ofNat v) else none

/-- bant/frontend/ast.cc:31-44: base and digits of a number literal. -/
def literalBase (literal : Str) : Nat × Str :=
  match literal with
  | _ :: 'o' :: rest => (8, rest)
  | _ :: 'x' :: rest => (16, rest)
  | _ => (10, literal)

/-- bant/frontend/ast.cc:28-50, `IntScalar::FromLiteral`; `none` is the null pointer. -/
def intFromLiteral (literal : Str) : Option Node :=
  match fromChars (literalBase literal).1 (literalBase literal).2 with
  | some v => some (.int literal v)
  | none => none

/-- bant/frontend/ast.cc:56-59: the raw prefix. -/
def stripRaw (literal : Str) : Bool × Str :=
  match literal with
  | c :: cs => if c = 'r' ∨ c = 'R' then (true, cs) else (false, c :: cs)
  | [] => (false, [])

/-- bant/frontend/ast.cc:52-74, `StringScalar::FromLiteral`; `none` is undefined behaviour
(reading beyond the end, removing more than there is). -/
def strFromLiteral (literal : Str) : Option Node :=
  let body := (stripRaw literal).2
  let raw := (stripRaw literal).1
  if 6 ≤ body.length ∧ body.take 3 = c!"\"\"\"" then
    some (.str ((body.drop 3).take (body.length - 6)) true raw)
  else if 2 ≤ body.length then
    some (.str ((body.drop 1).take (body.length - 2)) false raw)
  else none

end Bant
