import Verif.Model.Elab
import Verif.Model.PrintProject
import Verif.Spec.Grammar
import Verif.Spec.Scanner
import Verif.Spec.Rules

/-!
Specification vocabulary for the printed form of syntax trees (C16, C67, C68).

The printer neither writes parentheses around an expression nor chooses the quotes of a string
with all its content in mind. `Reprintable` is the set of trees for which this does no harm.
-/
namespace Bant
namespace Print

/-- Operands that need no parentheses in front of an operator: names, literals, calls, lists
and elements of such. -/
inductive Simple : Node → Prop
  | str {t tr r} : Simple (.str t tr r)
  | int {r v} : Simple (.int r v)
  | ident {i} : Simple (.ident i)
  | call {f a} : Simple (.call f a)
  | list {ty xs} : Simple (.list ty xs)
  | compr {ty f} : Simple (.compr ty f)
  | index {l i} : Simple l → Simple (.binop (.op '[') l i)

/-- The text ends with a conditional expression without `else`: an `else` that follows would
become a part of it. -/
inductive OpenIf : Node → Prop
  | here {c p} : OpenIf (.ternary c p .null)
  | negative {c p n} : OpenIf n → OpenIf (.ternary c p n)
  | unary {op e} : OpenIf e → OpenIf (.unary op e)
  | right {op l r} : op ≠ .op '[' → OpenIf r → OpenIf (.binop op l r)

/-- Text in which each `'` is escaped. -/
def NoBareQuote (text : Str) : Prop :=
  ∃ units : List Str, text = units.flatten ∧ (∀ u ∈ units, StringUnit u) ∧ ['\''] ∉ units

/-- Trees whose printed form means the same. -/
inductive Reprintable : Node → Prop
  | null : Reprintable .null
  /-- A string with a double quote is put in single quotes. -/
  | str {text triple raw} : ('"' ∈ text → triple = false ∧ NoBareQuote text) →
      Reprintable (.str text triple raw)
  | int {rep v} : Reprintable (.int rep v)
  | ident {i} : Reprintable (.ident i)
  /-- `not` in front of something that starts with `in` is scanned as `not in`. -/
  | unary {op e} : Reprintable e → e ≠ .null →
      (op = .op '!' → ∀ i, ¬ c!"in" <+: print i e) → Reprintable (.unary op e)
  /-- The left operand would need parentheses. `1.x` is scanned as number `1.` and name `x` -/
  | binop {op l r} : Reprintable l → Reprintable r → (op ∉ [.op ':', .kFor] → Simple l) →
      (op = .op '.' → ∀ rep v, l ≠ .int rep v) → Reprintable (.binop op l r)
  /-- A missing element is printed as the name `NIL`. -/
  | list {ty xs} : (∀ x ∈ xs, Reprintable x) → .null ∉ xs → Reprintable (.list ty xs)
  | compr {ty f} : Reprintable f → Reprintable (.compr ty f)
  | ternary {c p n} : Reprintable c → Reprintable p → Reprintable n → Simple p →
      (n ≠ .null → ¬ OpenIf c) → Reprintable (.ternary c p n)
  | assign {l r} : Reprintable l → Reprintable r → Reprintable (.assign l r)
  | call {f a} : Reprintable f → Reprintable a → Reprintable (.call f a)

/-- Rules and other statements of a file, each printed and followed by a newline, after a
comment line. -/
def printStatements : List (Str × Node) → Str
  | [] => []
  | (comment, n) :: xs => c!"# " ++ comment ++ ['\n'] ++ print 0 n ++ ['\n'] ++ printStatements xs

/-- Names, identifiers and the inside of strings. -/
inductive Word : Node → Str → Prop
  | str {t tr r} : Word (.str t tr r) t
  | ident {i} : Word (.ident i) i
  | unary {op e w} : Word e w → Word (.unary op e) w
  | left {op l r w} : Word l w → Word (.binop op l r) w
  | right {op l r w} : Word r w → Word (.binop op l r) w
  | elem {ty xs x w} : x ∈ xs → Word x w → Word (.list ty xs) w
  | compr {ty f w} : Word f w → Word (.compr ty f) w
  | condition {c p n w} : Word c w → Word (.ternary c p n) w
  | positive {c p n w} : Word p w → Word (.ternary c p n) w
  | negative {c p n w} : Word n w → Word (.ternary c p n) w
  | lhs {l r w} : Word l w → Word (.assign l r) w
  | rhs {l r w} : Word r w → Word (.assign l r) w
  | called {f a w} : Word f w → Word (.call f a) w
  | arg {f a w} : Word a w → Word (.call f a) w

/-- What is left of a text behind some number of matches, each searched behind the one before. -/
inductive Behind (find : Find) (w : Str) : Str → Prop
  | whole : Behind find w w
  | further {s b l} : Behind find w s → find s = some (b, l) → Behind find w (s.drop (b + l))

/-- Control sequences of a terminal: attributes for the text that follows. -/
def Sequence (s : Str) : Prop := ∃ ds : Str, s = '\x1b' :: '[' :: ds ++ ['m'] ∧ ∀ d ∈ ds, d.isDigit ∨ d = ';'

/-- The second text is the first one with control sequences in between. -/
inductive Colored : Str → Str → Prop
  | nil : Colored [] []
  | char {c a b} : Colored a b → Colored (c :: a) (c :: b)
  | sequence {s a b} : Sequence s → Colored a b → Colored a (s ++ b)

/-- The rules of the files, with their location. -/
def rulesIn (files : List File) : List (File × Str × Query.Result) :=
  files.flatMap fun f =>
    (Rules.report Rules.kwArgsIn [] true none (Rules.sites f.ast)).zipIdx.map fun r =>
      (f, f.loc r.2, r.1)

/-- Does the pattern ask for this rule ? Rules that are no target belong to all patterns that
ask for all targets below some directory. -/
def Asked (pattern : BazelPattern) (package : BazelPackage) (r : Query.Result) : Prop :=
  match package.qualifiedTarget r.name with
  | some t => pattern.matchTarget t = true
  | none => pattern.isRecursive = true ∧ pattern.matchPackage package = true

/-- Comment line of a rule: location, target, visibility. -/
def commentOf (package : BazelPackage) (loc : Str) (r : Query.Result) : Str :=
  loc ++ (match package.qualifiedTarget r.name with
    | some t => ' ' :: t.toString
    | none => [])
  ++ (match r.visibility with
    | some (_, xs) => c!" (visibility:" ++ (xs.filterMap Rules.text).flatMap (' ' :: ·) ++ c!")"
    | none => [])

/-- The file is parsed to this tree, without error. -/
def ReadAs (content : Str) (n : Node) : Prop := ∃ st, Parser.parseFile content = some (n, st) ∧ st.errs = []

/-- The tree of some file, with or without errors, as it is or evaluated. -/
def FromFile (n : Node) : Prop :=
  ∃ content ast st, Parser.parseFile content = some (ast, st) ∧ (n = ast ∨ ∃ glob, Elab.elabFile glob ast = some n)

/-- In the lists given as visibility nothing is missing. -/
def VisibilityComplete (n : Node) : Prop :=
  ∀ r ∈ Rules.report Rules.kwArgsIn [] true none (Rules.sites n), ∀ ty xs, r.visibility = some (ty, xs) →
    Node.null ∉ xs

end Print
end Bant
