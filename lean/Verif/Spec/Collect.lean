import Verif.Model.Collect
import Verif.Spec.FileUtils
import Verif.Spec.Targets

/-! Specification of where packages are (C50, C63). -/
namespace Bant
namespace CollectSpec
open FileUtils FileSpec Spec

/-- Where the search for a pattern in a package begins. -/
inductive Start (ws : Workspace.Map) : BazelPackage → Str → Prop
  | top : Start ws ⟨[], []⟩ c!"."
  | main {path} : path ≠ [] → Start ws ⟨[], path⟩ path
  | external {project path root} : project ≠ [] → Workspace.findPath ws project = some root →
      Start ws ⟨project, path⟩ (root ++ c!"/" ++ path)

/-- Directories below `start`, by the names on the way; links are not followed. -/
inductive Below (t : Tree) (symlink : Str → Bool) (start : Str) : List Str → Str → Prop
  | start : Below t symlink start [] start
  | sub {names dir e path i} : Below t symlink start names dir → In t dir e path → IsDir t path e i →
      symlink path = false → Below t symlink start (names ++ [e.name]) path

/-- The path of a package below another. -/
def below (path : Str) (names : List Str) : Str := joinPath ((if path = [] then [] else [path]) ++ names)

/-- `file` is a BUILD file of the package, at the pattern or (if that is recursive) below;
`names` are the directories on the way. -/
def BuildFileOf (t : Tree) (symlink : Str → Bool) (ws : Workspace.Map) (pattern : BazelPattern)
    (names : List Str) (pkg : BazelPackage) (file : Str) : Prop :=
  ∃ start dir e, Start ws pattern.pattern.package start ∧ Below t symlink start names dir ∧
    (names = [] ∨ pattern.kind = .recursive ∨ pattern.kind = .alwaysMatch) ∧
    In t dir e file ∧ (¬ ∃ i, IsDir t file e i) ∧ (e.name = c!"BUILD" ∨ e.name = c!"BUILD.bazel") ∧
    pkg = ⟨pattern.pattern.package.project, below pattern.pattern.package.path names⟩

/-- A path of a pattern: no slash at begin or end. -/
def Tidy (path : Str) : Prop := path.head? ≠ some '/' ∧ path.getLast? ≠ some '/'

/-- Directories of external projects have no slash at the end. -/
def Roots (ws : Workspace.Map) : Prop :=
  ∀ project root, Workspace.findPath ws project = some root → root.getLast? ≠ some '/'

/-- Names of directories that are not looked into. -/
def skipped : List Str := [c!"_tmp", c!".cache", c!".git"]

/-- What is in the directories below `start`: if two directories look the same by inode, they are
the same. -/
def Apart (t : Tree) (symlink : Str → Bool) (start : Str) : Prop :=
  ∀ n₁ d₁ e₁ p₁ n₂ d₂ e₂ p₂ i, Below t symlink start n₁ d₁ → In t d₁ e₁ p₁ → IsDir t p₁ e₁ i →
    Below t symlink start n₂ d₂ → In t d₂ e₂ p₂ → IsDir t p₂ e₂ i → Valid i → p₁ = p₂

end CollectSpec
end Bant
