import Verif.Lemmas.ParserFile

/-! Specification of texts that can be appended to a BUILD file (C138, C142, C143). -/
namespace Bant
namespace LayoutSpec

/-- The first token of the text is a name or a string, or there is none. -/
def BeginsAnew (b : Str) : Prop :=
  ∃ ts, Parser.TokensOf b ts ∧ ∀ t, ts.head? = some t → t.type = .identifier ∨ t.type = .stringLiteral

end LayoutSpec
end Bant
