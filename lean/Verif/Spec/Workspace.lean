import Verif.Model.Workspace
import Verif.Spec.Headers

/-! Specification of the external projects of a workspace (C41, C59). -/
namespace Bant
namespace WorkspaceSpec

/-- Something that is registered: name, version, directory. -/
structure Entry where
  name : Str
  version : Str
  dir : Str
deriving DecidableEq

/-- Directory `dir` is what has been registered last for the name and version. -/
def Registered (log : List Entry) (name version dir : Str) : Prop :=
  ∃ before after, log = before ++ ⟨name, version, dir⟩ :: after ∧
    ∀ e ∈ after, ¬ (e.name = name ∧ e.version = version)

/-- A project may be asked for with or without `@`. -/
def AskedAs (question name : Str) : Prop :=
  question = '@' :: name ∨ (question = name ∧ question ≠ [] ∧ question.head? ≠ some '@')

/-- The directories in which a declared project may be found, best one first. -/
def places (fs : Workspace.FileSystem) (r : Query.Result) : List Str :=
  let base := c!"bazel-out/../../../external/" ++ r.name
  (if r.version = [] then [] else [base ++ c!"~" ++ r.version]) ++ [base, base ++ c!"~override"] ++
    (fs.glob (base ++ c!"~*")).take 1

/-- What is known about a declared project: its name is `repo_name` if that is given. -/
def entryOf (fs : Workspace.FileSystem) (r : Query.Result) : Option Entry :=
  ((places fs r).find? fun d => fs.isDirectory d && fs.canRead d).map fun d =>
    ⟨if r.repoName = [] then r.name else r.repoName, r.version, d⟩

/-- All that is declared in the given trees. -/
def declared (fs : Workspace.FileSystem) (trees : List Node) : List Entry :=
  trees.flatMap fun ast => (Rules.rulesOf [c!"http_archive", c!"bazel_dep"] ast).filterMap (entryOf fs)

/-- Name and version of the project in an external directory. -/
def InDir (dir name version : Str) : Prop :=
  ∃ up file, (dir = up ++ c!"/" ++ file ∨ (up = [] ∧ dir = file)) ∧ '/' ∉ file ∧ name ≠ [] ∧
    '~' ∉ name ∧ (file = name ++ c!"~" ++ version ∨ (version = [] ∧ file = name))

end WorkspaceSpec
end Bant
