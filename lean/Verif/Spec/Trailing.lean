import Verif.Spec.SameProject

/-! Specification of what does not matter in a text (C137): a comma after the last element. -/
namespace Bant
namespace LayoutSpec

/-- Opening brackets. -/
def openers : List TokenType := [.op '(', .op '[', .op '{']

/-- Closing brackets. -/
def closers : List TokenType := [.op ')', .op ']', .op '}']

/-- A comma has been seen in the innermost brackets. -/
def seen : List Bool → List Bool
  | [] => []
  | _ :: st => true :: st

/-- The second list of tokens is the first without some of the commas in front of a closing bracket. The elements
that these commas follow are there in both: the comma is not the first thing in the brackets, and does not follow
another comma. A comma that is removed is in square or curly brackets, in the parentheses of a call, or in
parentheses with another comma before; with `all`, also in others.

The list tells, for each of the brackets that are open, whether a comma can be removed there; the type is that of the
token before. -/
inductive Trimmed (all : Bool) : List Bool → TokenType → List Token → List Token → Prop
  | done {st : List Bool} {prev : TokenType} : Trimmed all st prev [] []
  | plain {st : List Bool} {prev : TokenType} {t t' : Token} {s s' : List Token} : SameToken t t' →
      t.type ∉ openers → t.type ∉ closers → t.type ≠ .op ',' → Trimmed all st t.type s s' →
      Trimmed all st prev (t :: s) (t' :: s')
  | opens {st : List Bool} {prev : TokenType} {t t' : Token} {s s' : List Token} : SameToken t t' →
      t.type ∈ openers → Trimmed all ((all || decide (t.type ≠ .op '(' ∨ prev = .identifier)) :: st) t.type s s' →
      Trimmed all st prev (t :: s) (t' :: s')
  | closes {st : List Bool} {k : Bool} {prev : TokenType} {t t' : Token} {s s' : List Token} : SameToken t t' →
      t.type ∈ closers → Trimmed all st t.type s s' → Trimmed all (k :: st) prev (t :: s) (t' :: s')
  | comma {st : List Bool} {prev : TokenType} {t t' : Token} {s s' : List Token} : SameToken t t' →
      t.type = .op ',' → Trimmed all (seen st) t.type s s' → Trimmed all st prev (t :: s) (t' :: s')
  | removed {st : List Bool} {prev : TokenType} {p t t' : Token} {s s' : List Token} : SameToken t t' →
      p.type = .op ',' → prev ∉ .op ',' :: openers → t.type ∈ closers → Trimmed all st t.type s s' →
      Trimmed all (true :: st) prev (p :: t :: s) (t' :: s')

/-- A text, and one without some of the commas that follow a last element. -/
def WithoutCommas (all : Bool) (content content' : Str) : Prop :=
  ∃ ts ts', Parser.TokensOf content ts ∧ Parser.TokensOf content' ts' ∧ Trimmed all [] .eof ts ts'

/-- There are no errors in a text. -/
def Clean (content : Str) : Prop := ∃ tree st, Parser.parseFile content = some (tree, st) ∧ st.errs = []

/-- The same machine, but in BUILD and workspace files without errors there are, or are not, commas that follow a last
element; other files (but for `.bazelrc`) are different in whatever way. -/
structure SameButCommas (m m' : Commands.Machine) : Prop where
  rest : m' = { m with fs := { m.fs with content := m'.fs.content }, base := m'.base, nameLoc := m'.nameLoc,
                       callLoc := m'.callLoc, line := m'.line }
  missing : ∀ name, m'.fs.content name = none ↔ m.fs.content name = none
  builds : ∀ name c c', m.fs.content name = some c → m'.fs.content name = some c' → IsParsed name → c' = c ∨
    (Clean c ∧ WithoutCommas false c c') ∨ (Clean c' ∧ WithoutCommas false c' c)
  settings : m'.fs.content c!".bazelrc" = m.fs.content c!".bazelrc"

end LayoutSpec
end Bant
