import Verif.Spec.Commands
import Verif.Spec.Layout

/-! Specification of projects that differ in layout and comments only (C96). -/
namespace Bant
namespace LayoutSpec
open Commands Cli

/-- Files that are read as BUILD or workspace files. -/
def IsParsed (name : Str) : Prop :=
  GraphSpec.IsBuild name ∨ name ∈ [c!"WORKSPACE", c!"WORKSPACE.bazel", c!"WORKSPACE.bzlmod", c!"MODULE.bazel"]

/-- The same machine, but the texts of BUILD and workspace files have other layout and comments; other files
(but for `.bazelrc`) are different in whatever way. Things can be elsewhere in memory and on other lines. -/
structure SameProject (m m' : Machine) : Prop where
  rest : m' = { m with fs := { m.fs with content := m'.fs.content }, base := m'.base, nameLoc := m'.nameLoc,
                       callLoc := m'.callLoc, line := m'.line }
  missing : ∀ name, m'.fs.content name = none ↔ m.fs.content name = none
  builds : ∀ name c c', m.fs.content name = some c → m'.fs.content name = some c' → IsParsed name →
    c' = c ∨ SameButLayout NotThenIn c c'
  settings : m'.fs.content c!".bazelrc" = m.fs.content c!".bazelrc"

/-- The same machine, but the texts of BUILD and workspace files are others, with the same trees: whatever the
difference is, and whether there are errors is the same. -/
structure SameTrees (m m' : Machine) : Prop where
  rest : m' = { m with fs := { m.fs with content := m'.fs.content }, base := m'.base, nameLoc := m'.nameLoc,
                       callLoc := m'.callLoc, line := m'.line }
  missing : ∀ name, m'.fs.content name = none ↔ m.fs.content name = none
  builds : ∀ name c c', m.fs.content name = some c → m'.fs.content name = some c' → IsParsed name → c' = c ∨
    ∃ tree st st', Parser.parseFile c = some (tree, st) ∧ Parser.parseFile c' = some (tree, st') ∧
      (st'.errs = [] ↔ st.errs = [])
  settings : m'.fs.content c!".bazelrc" = m.fs.content c!".bazelrc"

/-- What `dwyu` takes from sources and comments: the included files, and which dependencies have a `keep`
comment. -/
structure SameSources (m m' : Machine) : Prop where
  includes : ∀ name c c', m.fs.content name = some c → m'.fs.content name = some c' →
    (Includes.extract c').map (·.2) = (Includes.extract c).map (·.2)
  keep : ∀ r t n, Dwyu.hasKeepComment (m'.line r t n) = Dwyu.hasKeepComment (m.line r t n)

/-- Places in files are only printed by some commands. -/
structure SamePlaces (m m' : Machine) (cmd : Command) : Prop where
  call : cmd = .print ∨ cmd = .parse → m'.callLoc = m.callLoc
  name : cmd = .listTargets → m'.nameLoc = m.nameLoc

end LayoutSpec
end Bant
