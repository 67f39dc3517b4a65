import Verif.Spec.Appended
import Verif.Spec.Refactored

/-! Specification: strings as statements, such as doc strings, are put into files (C143). -/
namespace Bant
namespace LayoutSpec

/-- There is nothing but strings (and comments) in the text. -/
def StringsOnly (d : Str) : Prop :=
  ∃ ts, Parser.TokensOf d ts ∧ ∀ t ∈ ts, t.type = .stringLiteral

/-- The text has no syntax errors. -/
def Complete (a : Str) : Prop :=
  ∃ tree st, Parser.parseFile a = some (tree, st) ∧ st.errs = []

/-- Lines with strings are inserted or removed: ahead of everything, behind everything, or between statements. -/
inductive Documented : Str → Str → Prop
  | refl (c : Str) : Documented c c
  | ahead {d c : Str} : StringsOnly d → BeginsAnew c → Documented c (d ++ '\n' :: c)
  | between {a d c : Str} : Complete a → StringsOnly d → BeginsAnew c →
      Documented (a ++ '\n' :: c) (a ++ '\n' :: d ++ '\n' :: c)
  | behind {a d : Str} : Complete a → StringsOnly d → Documented a (a ++ '\n' :: d)
  | symm {c c' : Str} : Documented c c' → Documented c' c
  | trans {c c' c'' : Str} : Documented c c' → Documented c' c'' → Documented c c''

end LayoutSpec

namespace RulesSpec
open Commands Cli

/-- The same project, but there are other strings as statements in BUILD files and workspace files. Other files (but
for `.bazelrc`) are different in whatever way, unless the command is `dwyu`: then the same is included by sources, and
the same dependencies are to be kept. If the command is `list-targets`, names are at the same place. -/
structure SameButDocs (cmd : Command) (m m' : Machine) : Prop where
  rest : m' = { m with fs := { m.fs with content := m'.fs.content }, base := m'.base, nameLoc := m'.nameLoc,
                       callLoc := m'.callLoc, line := m'.line }
  missing : ∀ name, m'.fs.content name = none ↔ m.fs.content name = none
  files : ∀ name c c', m.fs.content name = some c → m'.fs.content name = some c' →
    GraphSpec.IsBuild name ∨ name ∈ Workspace.wsFiles → LayoutSpec.Documented c c'
  settings : m'.fs.content c!".bazelrc" = m.fs.content c!".bazelrc"
  includes : cmd = .dwyu → ∀ name c c', m.fs.content name = some c → m'.fs.content name = some c' →
    (Includes.extract c').map (·.2) = (Includes.extract c).map (·.2)
  keeps : cmd = .dwyu → ∀ r r', told r' = told r → ∀ t n,
    Dwyu.hasKeepComment (m'.line r' t n) = Dwyu.hasKeepComment (m.line r t n)
  places : cmd = .listTargets → m'.nameLoc = m.nameLoc

end RulesSpec
end Bant
