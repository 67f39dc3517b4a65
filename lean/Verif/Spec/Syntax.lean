import Verif.Model.Ast
import Verif.Spec.Scanner

/-! Specification vocabulary for syntax trees and literals (C15, C17, C18, C54). -/
namespace Bant

/-- A tree without missing parts. Two kinds of nodes have optional parts by design: one side
of a slice and the `else` part of a conditional expression. If `lenient` is set, a missing
operand of `-`/`not` and missing names in a list of variables are tolerated, too. -/
inductive Filled (lenient : Bool) : Node → Prop
  | str {t tr r} : Filled lenient (.str t tr r)
  | int {r v} : Filled lenient (.int r v)
  | ident {i} : Filled lenient (.ident i)
  | unary {op e} : Filled lenient e → Filled lenient (.unary op e)
  | binop {op a b} : Filled lenient a → Filled lenient b → Filled lenient (.binop op a b)
  | sliceFrom {x a} : Filled lenient x → Filled lenient a →
      Filled lenient (.binop (.op '[') x (.binop (.op ':') a .null))
  | sliceTo {x b} : Filled lenient x → Filled lenient b →
      Filled lenient (.binop (.op '[') x (.binop (.op ':') .null b))
  | list {ty xs} : (∀ x ∈ xs, Filled lenient x) → Filled lenient (.list ty xs)
  | compr {ty f} : Filled lenient f → Filled lenient (.compr ty f)
  | ternary {c p n} : Filled lenient c → Filled lenient p → Filled lenient n →
      Filled lenient (.ternary c p n)
  | onlyIf {c p} : Filled lenient c → Filled lenient p → Filled lenient (.ternary c p .null)
  | assign {l r} : Filled lenient l → Filled lenient r → Filled lenient (.assign l r)
  | call {f a} : Filled lenient f → Filled lenient a → Filled lenient (.call f a)
  | unaryHole {op} : lenient = true → Filled lenient (.unary op .null)
  | forHole {x xs vals} : lenient = true → (∀ v ∈ xs, v = .null ∨ ∃ i, v = .ident i) →
      Filled lenient x → Filled lenient vals →
      Filled lenient (.binop .kFor x (.binop .kIn (.list .tuple xs) vals))
  | assignHole {xs r} : lenient = true → (∀ v ∈ xs, v = .null ∨ ∃ i, v = .ident i) →
      Filled lenient r → Filled lenient (.assign (.list .tuple xs) r)

/-- `Denotes literal raw value`: the characters between the quotes of a string literal; a
string literal is closed by the same number of quotes it has been opened with, and can not
contain them. -/
inductive Denotes : Str → Bool → Str → Prop
  | single {pre : Str} {q : Char} {units : List Str} : StringStart pre q →
      (∀ u ∈ units, StringUnit u) → [q] ∉ units →
      Denotes (pre ++ [q] ++ units.flatten ++ [q]) (pre ≠ []) units.flatten
  | triple {pre : Str} {q : Char} {units : List Str} : StringStart pre q →
      (∀ u ∈ units, StringUnit u) → (∀ a b, units ≠ a ++ [[q], [q], [q]] ++ b) →
      (∀ a, units ≠ a ++ [[q]]) →
      Denotes (pre ++ [q, q, q] ++ units.flatten ++ [q, q, q]) (pre ≠ []) units.flatten

/-- Value of a digit. -/
def digitNumber (c : Char) : Nat :=
  (c!"0123456789abcdef").idxOf c |> min ((c!"0123456789ABCDEF").idxOf c)

/-- Positional notation: the digit at distance `k` from the right counts `base ^ k` times. -/
def positional (base : Nat) : Str → Nat
  | [] => 0
  | c :: cs => digitNumber c * base ^ cs.length + positional base cs

/-- `Reads literal v`: number literals and their value: decimal, hexadecimal and octal
integers. (There are no fractions in this language, see C54.) -/
inductive Reads : Str → Nat → Prop
  | dec {s : Str} : s ≠ [] → (∀ c ∈ s, c ∈ c!"0123456789") → Reads s (positional 10 s)
  | hex {s : Str} : s ≠ [] → (∀ c ∈ s, c ∈ c!"0123456789abcdefABCDEF") →
      Reads ('0' :: 'x' :: s) (positional 16 s)
  | oct {s : Str} : s ≠ [] → (∀ c ∈ s, c ∈ c!"01234567") → Reads ('0' :: 'o' :: s) (positional 8 s)

end Bant
