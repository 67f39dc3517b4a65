import Verif.Spec.Grammar
import Verif.Spec.Trailing

/-! Specification of what does not matter in a text (C139): parentheses around a whole expression. -/
namespace Bant
namespace LayoutSpec
open Grammar

/-- Tokens after which an expression is expected. -/
def expecting : List TokenType :=
  [.op '=', .op ',', .op '(', .op '[', .op '{', .op ':', .op '!', .kIf, .kElse] ++ binary

/-- Are we where variables are listed: between `for` and `in`, or between the parenthesis at the begin of a statement
and `=`? `v`: were we before the token; `prev`: the token before it. -/
def variables (v : Bool) (prev t : TokenType) : Bool :=
  if t = .kFor then true
  else if t = .kIn ∨ t = .op '=' then false
  else if t = .op '(' ∧ prev ≠ .identifier ∧ prev ∉ expecting then true
  else v

/-- In the second list of tokens there are parentheses around some expressions of the first; each of these is all that
is read as an expression at its place. (In `a + b * c` this can be `a + b * c`, `b * c` and `c`: bant reads operators from
the right.) -/
inductive Around : Bool → TokenType → List Token → List Token → Prop
  | done {v : Bool} {prev : TokenType} : Around v prev [] []
  | next {v : Bool} {prev : TokenType} {t : Token} {s u : List Token} : Around (variables v prev t.type) t.type s u →
      Around v prev (t :: s) (t :: u)
  | wrap {prev : TokenType} {p q : Token} {e s u : List Token} {n : Node} : prev ∈ expecting →
      Parses (.expr false) (e ++ s) s n → p.type = .op '(' → q.type = .op ')' → Around false (.op ')') s u →
      Around false prev (e ++ s) (p :: (e ++ q :: u))

/-- A text, and one with parentheses around some of the expressions. -/
def WithParens (content content' : Str) : Prop :=
  ∃ ts u ts', Parser.TokensOf content ts ∧ Parser.TokensOf content' ts' ∧ Around false .eof ts u ∧ SameTokens u ts'

/-- Parentheses, step by step; so that there can be some in others. -/
inductive Parenthesized : Str → Str → Prop
  | same {c : Str} : Parenthesized c c
  | step {c c1 c2 : Str} : Parenthesized c c1 → WithParens c1 c2 → Parenthesized c c2

/-- The same machine, but in BUILD and workspace files without errors there are, or are not, parentheses around
expressions; other files (but for `.bazelrc`) are different in whatever way. -/
structure SameButParens (m m' : Commands.Machine) : Prop where
  rest : m' = { m with fs := { m.fs with content := m'.fs.content }, base := m'.base, nameLoc := m'.nameLoc,
                       callLoc := m'.callLoc, line := m'.line }
  missing : ∀ name, m'.fs.content name = none ↔ m.fs.content name = none
  builds : ∀ name c c', m.fs.content name = some c → m'.fs.content name = some c' → IsParsed name →
    c' = c ∨ (Clean c ∧ Parenthesized c c') ∨ (Clean c' ∧ Parenthesized c' c)
  settings : m'.fs.content c!".bazelrc" = m.fs.content c!".bazelrc"

end LayoutSpec
end Bant
