import Verif.Spec.Commands
import Verif.Spec.Appended

/-! Specification: rules are appended to BUILD files (C142). -/
namespace Bant
namespace CommandSpec
open Commands GraphSpec

/-- Something is appended in a new line to a text that has no syntax errors. It begins with a name or a string. -/
def LongerText (c c' : Str) : Prop :=
  (∃ tree st, Parser.parseFile c = some (tree, st) ∧ st.errs = []) ∧
    ∃ b, c' = c ++ '\n' :: b ∧ LayoutSpec.BeginsAnew b

/-- The same machine, but something is appended to some of the BUILD files. Names are where they were. -/
structure Lengthened (m m' : Machine) : Prop where
  rest : m' = { m with fs := { m.fs with content := m'.fs.content }, base := m'.base, callLoc := m'.callLoc,
                       line := m'.line }
  missing : ∀ name, m'.fs.content name = none ↔ m.fs.content name = none
  files : ∀ name c c', m.fs.content name = some c → m'.fs.content name = some c' →
    c' = c ∨ IsBuild name ∧ LongerText c c'

end CommandSpec
end Bant
