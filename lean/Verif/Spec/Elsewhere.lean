import Verif.Spec.Commands

/-! Specification of BUILD files that a command does not look at (C104). -/
namespace Bant
namespace ElsewhereSpec
open Commands CommandSpec Cli GraphSpec

/-- Commands that look at dependencies. -/
def follows (cmd : Command) : Bool :=
  match cmd with
  | .print | .canonicalizeDeps | .listWorkspace | .aliasedBy => false
  | _ => true

/-- How far: some commands need all dependencies. -/
def reach (flags : Flags) (cmd : Command) : Nat :=
  match cmd with
  | .dwyu | .hasDependents | .compilationDB | .compileFlags => limit flags
  | _ => flags.depth.toNat

/-- A BUILD file that has nothing to do with a command: it is not found for the pattern, and it is not the one of a
package with a target that is reached from the targets of the pattern. -/
structure Elsewhere (m : Machine) (flags : Flags) (cmd : Command) (pattern : BazelPattern) (ws : Workspace.Map)
    (found : List Str) (files : Loaded) (name : Str) : Prop where
  build : IsBuild name
  notFound : name ∉ found
  notReached : follows cmd = true → ∀ t, Reached m ws (searched cmd pattern) (reach flags cmd) files t →
    DepGraph.pathForPackage (world m ws) t.package ≠ some name

/-- What is included if a file is read as source. -/
def included (m : Machine) (name : Str) : Option (Option (List Str)) :=
  (m.fs.content name).map fun c => (Includes.extract c).map (·.2)

/-- Other texts of BUILD files that have nothing to do with the command; they may not even be readable. For `dwyu`, files that
are sources at the same time include what they did. -/
structure SameHere (m m' : Machine) (flags : Flags) (cmd : Command) (pattern : BazelPattern) (ws : Workspace.Map)
    (found : List Str) (files : Loaded) : Prop where
  rest : m' = { m with fs := { m.fs with content := m'.fs.content }, base := m'.base }
  changed : ∀ name, m'.fs.content name ≠ m.fs.content name → Elsewhere m flags cmd pattern ws found files name
  sources : cmd = .dwyu → ∀ name, included m' name = included m name

end ElsewhereSpec
end Bant
