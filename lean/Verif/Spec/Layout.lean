import Verif.Lemmas.ParserFile

/-! Specification of what does not matter in a text (C96): layout and comments. -/
namespace Bant
namespace LayoutSpec
open Parser

/-- The second text has the tokens of the first (which are given, with the offset), but other white space and
comments between them. There is no new place where tokens touch, and in front of `[` there is a new line in both
or in none. `ok` restricts what follows a token in the second text. -/
inductive Relaid (ok : Token → Str → Prop) : Nat → List Token → Str → Str → Prop
  | done {p : Nat} {g g' : Str} : Gap True g → Gap True g' → Relaid ok p [] g g'
  | token {p : Nat} {t : Token} {ts : List Token} {g g' rest rest' : Str} : Gap False g →
      Gap False g' → t.start = p + g.length → (g' = [] → g = []) →
      (t.type = .op '[' → ('\n' ∈ g ↔ '\n' ∈ g')) → ok t rest' →
      Relaid ok (t.start + t.text.length) ts rest rest' →
      Relaid ok p (t :: ts) (g ++ t.text ++ rest) (g' ++ t.text ++ rest')

/-- The word `not` is not followed by `in` after white space only (`not in` is one token). -/
def NotThenIn (t : Token) (rest : Str) : Prop :=
  t.text = c!"not" → ∀ ws r, rest = ws ++ c!"in" ++ r → ∃ c ∈ ws, isSpace c = false

/-- A text without lexical errors, and the same with other layout and comments. -/
def SameButLayout (ok : Token → Str → Prop) (content content' : Str) : Prop :=
  ∃ ts, TokensOf content ts ∧ (∀ t ∈ ts, t.type ≠ .error) ∧ Relaid ok 0 ts content content'

/-- Tokens that the parser does not tell apart. -/
structure SameToken (t t' : Token) : Prop where
  type : t'.type = t.type
  text : t'.text = t.text
  line : t.type = .op '[' → t'.newlineSinceLast = t.newlineSinceLast

/-- One by one. -/
inductive SameTokens : List Token → List Token → Prop
  | nil : SameTokens [] []
  | cons {t t' : Token} {ts ts' : List Token} : SameToken t t' → SameTokens ts ts' →
      SameTokens (t :: ts) (t' :: ts')

end LayoutSpec
end Bant
