import Verif.Base.Str

/-! Specification of the include directives of a C++ source (C45). -/
namespace Bant
namespace IncludeSpec

/-- White space, also newlines. -/
def Blank (s : Str) : Prop := ∀ c ∈ s, c = ' ' ∨ c = '\t' ∨ c = '\n' ∨ c = '\r' ∨ c = Char.ofNat 12

/-- A line that is a directive to include the quoted `path`, which begins at the given column. -/
def Directive (line : Str) (column : Nat) (path : Str) : Prop :=
  ∃ a b c rest, line = a ++ c!"#" ++ b ++ c!"include" ++ c ++ c!"\"" ++ path ++ c!"\"" ++ rest ∧
    Blank a ∧ Blank b ∧ Blank c ∧ '"' ∉ path ∧
    column = (a ++ c!"#" ++ b ++ c!"include" ++ c ++ c!"\"").length

/-- The directives of some lines, the first of which begins at the given position: positions and
paths. -/
inductive Listed : Nat → List Str → List (Nat × Str) → Prop
  | nil {off} : Listed off [] []
  | directive {off line lines col path out} : Directive line col path →
      Listed (off + line.length + 1) lines out →
      Listed off (line :: lines) ((off + col, path) :: out)
  | other {off line lines out} : (∀ col path, ¬ Directive line col path) →
      Listed (off + line.length + 1) lines out → Listed off (line :: lines) out

/-- Paths that are recognised: any number of `../`, then letters, digits, `_`, `/`, `+`, `-`,
then any number of extensions of letters. -/
def PathForm (path : Str) : Prop :=
  ∃ (n : Nat) (body : Str) (exts : List Str), path = (List.replicate n c!"../").flatten ++ body ++ (exts.map ('.' :: ·)).flatten ∧
    body ≠ [] ∧ (∀ c ∈ body, c.isAlphanum = true ∨ c = '_' ∨ c = '/' ∨ c = '+' ∨ c = '-') ∧
    ∀ e ∈ exts, e ≠ [] ∧ ∀ c ∈ e, c.isAlpha = true

/-- A line without surprises: directives have a space before the quote and a path of the usual
form, quotes are balanced, no quote is followed by `#`, and it is not a lone `#` or `#include`. -/
structure Tidy (line : Str) : Prop where
  directive : ∀ a b c path rest,
    line = a ++ c!"#" ++ b ++ c!"include" ++ c ++ c!"\"" ++ path ++ c!"\"" ++ rest →
    Blank a → Blank b → Blank c → '"' ∉ path → c ≠ [] ∧ PathForm path
  quotes : line.count '"' % 2 = 0
  hash : ∀ a b c, line = a ++ c!"\"" ++ b ++ c!"#" ++ c → ¬ Blank b
  alone : ∀ a b, line = a ++ c!"#" ++ b → Blank a → ¬ Blank b
  lonely : ∀ a b c, line = a ++ c!"#" ++ b ++ c!"include" ++ c → Blank a → Blank b → ¬ Blank c

/-- The text before a directive: there is only white space since the begin of the line, or since the last quote. -/
def LineBegin (x : Str) : Prop :=
  ∃ y a, x = y ++ a ∧ Blank a ∧ (y = [] ∨ y.getLast? = some '\n' ∨ y.getLast? = some '"')

end IncludeSpec
end Bant
