import Verif.Model.Scanner

/-! Specification vocabulary for scanning (C10 - C13, C52). -/
namespace Bant

/-- Text between tokens: white space, backslashes and comments up to a newline. A comment
that is not terminated by a newline is only possible at the end of the file. -/
inductive Gap (atEof : Prop) : Str → Prop
  | nil : Gap atEof []
  | blank {c : Char} {s : Str} : (c ∈ [' ', '\t', '\n', '\x0b', '\x0c', '\r', '\\']) →
      Gap atEof s → Gap atEof (c :: s)
  | comment {body s : Str} : '\n' ∉ body → Gap atEof s → Gap atEof ('#' :: (body ++ '\n' :: s))
  | lastComment {body : Str} : atEof → '\n' ∉ body → Gap atEof ('#' :: body)

/-- `Tiled p text tokens`: the text, located at offset `p`, is a sequence of gaps and
non-empty tokens, ended by exactly one end-of-file token. -/
inductive Tiled : Nat → Str → List Token → Prop
  | eof {p : Nat} {gap : Str} {t : Token} : Gap True gap → t.type = .eof → t.text = [] →
      t.start = p + gap.length → Tiled p gap [t]
  | token {p : Nat} {gap rest : Str} {t : Token} {ts : List Token} : Gap False gap →
      t.text ≠ [] → t.type ≠ .eof → t.start = p + gap.length →
      Tiled (t.start + t.text.length) rest ts →
      Tiled p (gap ++ (t.text ++ rest)) (t :: ts)

namespace Scanner

/-- The first `n` tokens delivered by `next`, and the scanner afterwards. -/
def deliver : Nat → Scanner → List Token × Scanner
  | 0, s => ([], s)
  | n + 1, s => let r := deliver n (next s).2; ((next s).1 :: r.1, r.2)

/-- Requests to a scanner. -/
inductive Request where
  | peek
  | next
deriving DecidableEq, Repr

/-- Answers to a history of requests. -/
def serve : List Request → Scanner → List Token
  | [], _ => []
  | .peek :: rs, s => (peek s).1 :: serve rs (peek s).2
  | .next :: rs, s => (next s).1 :: serve rs (next s).2

end Scanner
end Bant

namespace Bant

/-! Lexical grammar (C52) -/

def startsWithWordChar (rest : Str) : Prop := ∃ c cs, rest = c :: cs ∧ isIdentifierChar c = true

/-- Pieces of the inside of a string literal: a plain character that is not a backslash, or
a backslash with the character it escapes. -/
def StringUnit (u : Str) : Prop := (∃ c, u = [c] ∧ c ≠ '\\') ∨ (∃ c, u = ['\\', c])

/-- Start of a string literal: optional `r`, then the quote character. -/
def StringStart (pre : Str) (q : Char) : Prop := pre ∈ [[], ['r'], ['R']] ∧ q ∈ ['"', '\'']

/-- `StringText s rest`: string literal `s` followed by `rest`. There are one or three quotes
on both sides. A single quoted literal does not contain an unescaped quote (and `""` is not
followed by a third one); a triple quoted literal neither contains three successive
unescaped quotes nor an unescaped quote at its end. -/
inductive StringText : Str → Str → Prop
  | single {pre rest : Str} {q : Char} {units : List Str} : StringStart pre q →
      (∀ u ∈ units, StringUnit u) → [q] ∉ units → (units = [] → rest.head? ≠ some q) →
      StringText (pre ++ [q] ++ units.flatten ++ [q]) rest
  | triple {pre rest : Str} {q : Char} {units : List Str} : StringStart pre q →
      (∀ u ∈ units, StringUnit u) →
      (∀ a b, units ≠ a ++ [[q], [q], [q]] ++ b) → (∀ a, units ≠ a ++ [[q]]) →
      StringText (pre ++ [q, q, q] ++ units.flatten ++ [q, q, q]) rest

/-- A string literal that is not closed at the end of the file; the last character may be
a single backslash. -/
inductive OpenString : Str → Prop
  | single {pre tail : Str} {q : Char} {units : List Str} : StringStart pre q →
      (∀ u ∈ units, StringUnit u) → [q] ∉ units → tail ∈ [[], ['\\']] →
      OpenString (pre ++ [q] ++ units.flatten ++ tail)
  | triple {pre tail : Str} {q : Char} {units : List Str} : StringStart pre q →
      (∀ u ∈ units, StringUnit u) → (∀ a b, units ≠ a ++ [[q], [q], [q]] ++ b) →
      tail ∈ [[], ['\\']] →
      OpenString (pre ++ [q, q, q] ++ units.flatten ++ tail)

/-- Digits with at most one dot. -/
def Digits (digit : Char → Bool) (s : Str) : Prop :=
  (∀ c ∈ s, digit c = true ∨ c = '.') ∧ s.count '.' ≤ 1

/-- Decimal, hexadecimal or octal number. -/
inductive NumberText : (Char → Bool) → Str → Prop
  | dec {c : Char} {s : Str} : isDigit c = true → Digits isDigit s → NumberText isDigit (c :: s)
  | hex {s : Str} : Digits isXDigit s → NumberText isXDigit ('0' :: 'x' :: s)
  | oct {s : Str} : Digits isDigit s → NumberText isDigit ('0' :: 'o' :: s)

/-- Words with a meaning. -/
def keywords : List (Str × TokenType) :=
  [(c!"in", .kIn), (c!"for", .kFor), (c!"and", .kAnd), (c!"or", .kOr), (c!"if", .kIf),
   (c!"else", .kElse)]

/-- `TokenOk type text rest`: a text of that type, followed by `rest`. -/
inductive TokenOk : TokenType → Str → Str → Prop
  | punct {c : Char} {rest : Str} : c ∈ c!"(){}[],:+-*/.%|" → TokenOk (.op c) [c] rest
  | rel {c : Char} {rest : Str} : c ∈ c!"!<>=" → rest.head? ≠ some '=' →
      TokenOk (.op c) [c] rest
  | relEq {c : Char} {rest : Str} : c ∈ c!"!<>=" → TokenOk (.opEq c) [c, '='] rest
  | keyword {w rest : Str} {ty : TokenType} : (w, ty) ∈ keywords → ¬ startsWithWordChar rest →
      TokenOk ty w rest
  | not {rest : Str} : ¬ startsWithWordChar rest → TokenOk (.op '!') c!"not" rest
  | notIn {ws rest : Str} : ws ≠ [] → (∀ c ∈ ws, isSpace c = true) →
      TokenOk .kNotIn (c!"not" ++ ws ++ c!"in") rest
  | identifier {c : Char} {w rest : Str} : isDigit c = false →
      (∀ d ∈ c :: w, isIdentifierChar d = true) → c :: w ≠ c!"not" →
      (∀ ty, (c :: w, ty) ∉ keywords) → ¬ startsWithWordChar rest →
      TokenOk .identifier (c :: w) rest
  | number {digit : Char → Bool} {s rest : Str} : NumberText digit s →
      (∀ c cs, rest = c :: cs → digit c = false ∧ c ≠ '.') → TokenOk .numberLiteral s rest
  | string {s rest : Str} : StringText s rest → TokenOk .stringLiteral s rest
  | secondDot {digit : Char → Bool} {s rest : Str} : NumberText digit s → '.' ∈ s →
      rest.head? = some '.' → TokenOk .error s rest
  | unterminated {s : Str} : OpenString s → TokenOk .error s []
  | invalid {c : Char} {rest : Str} : isIdentifierChar c = false → c ∉ c!"(){}[],:+-*/.%|!<>=\"'" →
      TokenOk .error [c] rest
  | eof : TokenOk .eof [] []

end Bant
