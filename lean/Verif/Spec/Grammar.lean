import Verif.Model.Parser

/-!
The grammar of BUILD files, as far as bant reads it, and the tree that belongs to each
sentence (C15, C53). There are no errors, no scanner and no depth here: `Parses nt s s' n`
says that `s` starts with a phrase of kind `nt` with meaning `n` and that `s'` follows it.
-/
namespace Bant
namespace Grammar

/-- Type of the first token. -/
def hd (s : List Token) : TokenType :=
  match s with
  | [] => .eof
  | t :: _ => t.type

/-- Tokens an expression can start with. -/
def startsExpr (t : TokenType) : Prop :=
  t ∈ [.op '-', .op '!', .op '(', .op '[', .op '{', .stringLiteral, .numberLiteral, .identifier]

/-- Operators between two expressions. -/
def binary : List TokenType :=
  [.op '+', .op '-', .op '*', .op '/', .op '%', .op '|', .op '.', .op '<', .op '>',
   .opEq '=', .opEq '!', .opEq '<', .opEq '>', .kIn, .kNotIn, .kAnd, .kOr]

/-- The following tokens continue an expression. A `[` in a new line does not. -/
def continues (s : List Token) : Prop :=
  ∃ t r, s = t :: r ∧ (t.type = .kIf ∨ t.type ∈ binary ∨
    (t.type = .op '[' ∧ t.newlineSinceLast = false))

/-- Closing bracket. -/
def closing : ListType → TokenType
  | .list => .op ']'
  | .map => .op '}'
  | .tuple => .op ')'

/-- Kinds of list elements. -/
inductive Item where
  /-- an expression -/
  | value
  /-- an expression or a keyword argument -/
  | argument
  /-- key and value -/
  | entry
  /-- an identifier or nothing -/
  | variable

/-- Kinds of phrases. -/
inductive NT where
  /-- expression; may be missing if optional -/
  | expr (opt : Bool)
  /-- what can follow the operand -/
  | cont (operand : Node)
  /-- literal, name, call or bracketed list -/
  | atom
  /-- after the opening parenthesis -/
  | paren
  /-- after the first element of a tuple -/
  | tupleTail
  /-- after the opening bracket of an index or slice -/
  | index
  /-- after the opening bracket of a list or map -/
  | bracket (ty : ListType) (i : Item)
  /-- comma separated items and the closing token -/
  | items (ty : ListType) (i : Item) (close : TokenType)
  | item (i : Item)
  /-- `for` clauses of a comprehension -/
  | clauses (close : TokenType) (target : Node)
  /-- `for` clauses or the end of the comprehension -/
  | moreClauses (close : TokenType) (tree : Node)
  | program

/-- Phrases and their trees. -/
inductive Parses : NT → List Token → List Token → Node → Prop
  -- expressions
  | missing {s} : ¬ startsExpr (hd s) → Parses (.expr true) s s .null
  | unary {opt t s s1 s2 e n} : t.type ∈ [.op '-', .op '!'] → Parses (.expr opt) s s1 e →
      Parses (.cont (.unary t.type e)) s1 s2 n → Parses (.expr opt) (t :: s) s2 n
  | parenthesis {opt t s s1 s2 e n} : t.type = .op '(' → Parses .paren s s1 e →
      Parses (.cont e) s1 s2 n → Parses (.expr opt) (t :: s) s2 n
  | operand {opt s s1 s2 e n} : Parses .atom s s1 e → Parses (.cont e) s1 s2 n →
      Parses (.expr opt) s s2 n
  -- continuation
  | stop {n s} : ¬ continues s → Parses (.cont n) s s n
  | ifOnly {n t s s1 c} : t.type = .kIf → Parses (.expr false) s s1 c → hd s1 ≠ .kElse →
      Parses (.cont n) (t :: s) s1 (.ternary c n .null)
  | ifElse {n t u s s1 s2 c e} : t.type = .kIf → Parses (.expr false) s (u :: s1) c →
      u.type = .kElse → Parses (.expr false) s1 s2 e →
      Parses (.cont n) (t :: s) s2 (.ternary c n e)
  | binary {n t s s1 r} : t.type ∈ binary → Parses (.expr false) s s1 r →
      Parses (.cont n) (t :: s) s1 (.binop t.type n r)
  | indexed {n t s s1 s2 i r} : t.type = .op '[' → t.newlineSinceLast = false →
      Parses .index s s1 i → Parses (.cont (.binop (.op '[') n i)) s1 s2 r →
      Parses (.cont n) (t :: s) s2 r
  -- index and slice
  | at_ {t s s1 i} : Parses (.expr true) s (t :: s1) i → i ≠ .null → t.type = .op ']' →
      Parses .index s s1 i
  | slice {t u s s1 s2 a b} : Parses (.expr true) s (t :: s1) a → t.type = .op ':' →
      Parses (.expr true) s1 (u :: s2) b → u.type = .op ']' → ¬ (a = .null ∧ b = .null) →
      Parses .index s s2 (.binop (.op ':') a b)
  -- atoms
  | string {t s n} : t.type = .stringLiteral → strFromLiteral t.text = some n →
      Parses .atom (t :: s) s n
  | number {t s n} : t.type = .numberLiteral → intFromLiteral t.text = some n →
      Parses .atom (t :: s) s n
  | name {t s} : t.type = .identifier → hd s ≠ .op '(' → Parses .atom (t :: s) s (.ident t.text)
  | call {t u s s1 args} : t.type = .identifier → u.type = .op '(' →
      Parses (.items .tuple .argument (.op ')')) s s1 args →
      Parses .atom (t :: u :: s) s1 (.call (.ident t.text) args)
  | list {t s s1 n} : t.type = .op '[' → Parses (.bracket .list .value) s s1 n →
      Parses .atom (t :: s) s1 n
  | map {t s s1 n} : t.type = .op '{' → Parses (.bracket .map .entry) s s1 n →
      Parses .atom (t :: s) s1 n
  -- parentheses and tuples
  | grouped {t s s1 e} : Parses (.expr true) s (t :: s1) e → e ≠ .null → t.type = .op ')' →
      Parses .paren s s1 e
  | emptyTuple {t s s1} : Parses (.expr true) s (t :: s1) .null → t.type = .op ')' →
      Parses .paren s s1 (.list .tuple [])
  | tuple {s s1 s2 e xs} : Parses (.expr true) s s1 e → e ≠ .null → hd s1 = .op ',' →
      Parses .tupleTail s1 s2 (.list .tuple xs) → Parses .paren s s2 (.list .tuple (e :: xs))
  | tupleEnd {t s} : t.type = .op ')' → Parses .tupleTail (t :: s) s (.list .tuple [])
  | tupleComma {t u s} : t.type = .op ',' → u.type = .op ')' →
      Parses .tupleTail (t :: u :: s) s (.list .tuple [])
  | tupleNext {t s s1 s2 e xs} : t.type = .op ',' → hd s ≠ .op ')' →
      Parses (.expr false) s s1 e → Parses .tupleTail s1 s2 (.list .tuple xs) →
      Parses .tupleTail (t :: s) s2 (.list .tuple (e :: xs))
  -- lists and comprehensions
  | emptyBracket {ty i t s} : t.type = closing ty → Parses (.bracket ty i) (t :: s) s (.list ty [])
  | comprehension {ty i s s1 s2 x f} : hd s ≠ closing ty → Parses (.item i) s s1 x → x ≠ .null →
      hd s1 = .kFor → Parses (.clauses (closing ty) x) s1 s2 f →
      Parses (.bracket ty i) s s2 (.compr ty f)
  | bracketOne {ty i t s s1 x} : hd s ≠ closing ty → Parses (.item i) s (t :: s1) x → x ≠ .null →
      t.type = closing ty → Parses (.bracket ty i) s s1 (.list ty [x])
  | bracketMore {ty i t s s1 s2 x xs} : hd s ≠ closing ty → Parses (.item i) s (t :: s1) x →
      x ≠ .null → t.type = .op ',' → Parses (.items ty i (closing ty)) s1 s2 (.list ty xs) →
      Parses (.bracket ty i) s s2 (.list ty (x :: xs))
  | itemsEnd {ty i close t s} : t.type = close → Parses (.items ty i close) (t :: s) s (.list ty [])
  | itemsLast {ty i close t s s1 x} : hd s ≠ close → Parses (.item i) s (t :: s1) x →
      t.type = close → Parses (.items ty i close) s s1 (.list ty [x])
  | itemsMore {ty i close t s s1 s2 x xs} : hd s ≠ close → Parses (.item i) s (t :: s1) x →
      t.type = .op ',' → Parses (.items ty i close) s1 s2 (.list ty xs) →
      Parses (.items ty i close) s s2 (.list ty (x :: xs))
  -- items
  | itemValue {s s1 n} : Parses (.expr false) s s1 n → Parses (.item .value) s s1 n
  | itemArgument {s s1 n} : Parses (.expr false) s s1 n → n ≠ .null →
      ¬ ((∃ i, n = .ident i) ∧ hd s1 = .op '=') → Parses (.item .argument) s s1 n
  | itemKeyword {s t s1 s2 i n} : Parses (.expr false) s (t :: s1) (.ident i) → t.type = .op '=' →
      Parses (.expr false) s1 s2 n → Parses (.item .argument) s s2 (.assign (.ident i) n)
  | itemEntry {s t s1 s2 k v} : Parses (.expr false) s (t :: s1) k → t.type = .op ':' →
      Parses (.expr false) s1 s2 v → Parses (.item .entry) s s2 (.binop (.op ':') k v)
  | itemVariable {t s} : t.type = .identifier →
      Parses (.item .variable) (t :: s) s (.ident t.text)
  | itemNothing {s} : hd s ≠ .identifier → Parses (.item .variable) s s .null
  -- comprehension clauses
  | forTuple {close x t p i s s1 s2 s3 vars vals f} : t.type = .kFor → p.type = .op '(' →
      Parses (.items .tuple .variable (.op ')')) s (i :: s1) vars → i.type = .kIn →
      Parses (.expr false) s1 s2 vals →
      Parses (.moreClauses close (.binop .kFor x (.binop .kIn vars vals))) s2 s3 f →
      Parses (.clauses close x) (t :: p :: s) s3 f
  | forList {close x t s s1 s2 s3 vars vals f} : t.type = .kFor → hd s ≠ .op '(' →
      Parses (.items .tuple .variable .kIn) s s1 vars → Parses (.expr false) s1 s2 vals →
      Parses (.moreClauses close (.binop .kFor x (.binop .kIn vars vals))) s2 s3 f →
      Parses (.clauses close x) (t :: s) s3 f
  | nextClause {close tree s s1 f} : hd s = .kFor → Parses (.clauses close tree) s s1 f →
      Parses (.moreClauses close tree) s s1 f
  | lastClause {close tree t s} : t.type = close → close ≠ .kFor →
      Parses (.moreClauses close tree) (t :: s) s tree
  -- files
  | endOfFile : Parses .program [] [] (.list .list [])
  | docString {t s xs} : t.type = .stringLiteral → Parses .program s [] (.list .list xs) →
      Parses .program (t :: s) [] (.list .list xs)
  | listStatement {t s s1 n xs} : t.type = .op '[' → Parses (.bracket .list .value) s s1 n →
      Parses .program s1 [] (.list .list xs) →
      Parses .program (t :: s) [] (.list .list (n :: xs))
  | tupleAssign {t e s s1 s2 lhs rhs xs} : t.type = .op '(' →
      Parses (.items .tuple .variable (.op ')')) s (e :: s1) lhs → e.type = .op '=' →
      Parses (.expr false) s1 s2 rhs → Parses .program s2 [] (.list .list xs) →
      Parses .program (t :: s) [] (.list .list (.assign lhs rhs :: xs))
  | assign {t e s s1 rhs xs} : t.type = .identifier → e.type = .op '=' →
      Parses (.expr false) s s1 rhs → Parses .program s1 [] (.list .list xs) →
      Parses .program (t :: e :: s) [] (.list .list (.assign (.ident t.text) rhs :: xs))
  | rule {t p s s1 args xs} : t.type = .identifier → p.type = .op '(' →
      Parses (.items .tuple .argument (.op ')')) s s1 args →
      Parses .program s1 [] (.list .list xs) →
      Parses .program (t :: p :: s) [] (.list .list (.call (.ident t.text) args :: xs))
  | method {t d s s1 e xs} : t.type = .identifier → d.type = .op '.' →
      Parses (.expr false) s s1 e → Parses .program s1 [] (.list .list xs) →
      Parses .program (t :: d :: s) [] (.list .list (.binop (.op '.') (.ident t.text) e :: xs))

end Grammar
end Bant
