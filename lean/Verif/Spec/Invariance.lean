import Verif.Spec.Commands

/-! Specification of what does not matter for the commands (C95, C96). -/
namespace Bant
namespace InvarianceSpec
open Commands CommandSpec GraphSpec FileUtils FileSpec CollectSpec

/-! ### The order of directories -/

/-- The same entries in the same directories, listed in whatever order. -/
structure SameEntries (t t' : Tree) : Prop where
  some : ∀ d es, t.list d = some es → ∃ es', t'.list d = some es' ∧ es'.Perm es
  none : ∀ d, t.list d = none → t'.list d = none
  stat : ∀ p, t'.stat p = t.stat p

/-- The same machine, but for the order of what is in directories, and where the contents of files are put in
memory. -/
structure SameMachine (m m' : Machine) : Prop where
  entries : SameEntries m.tree m'.tree
  rest : m' = { m with tree := m'.tree, base := m'.base, steps := m'.steps }

/-- The directories of a pattern are a tree with BUILD files for different packages: there are not more than
`steps`; their inodes are different; packages are not in hidden directories, and have one BUILD file each. -/
structure Orderly (m : Machine) (ws : Workspace.Map) (pattern : BazelPattern) (steps : Nat) : Prop where
  named : Named m.tree
  tidy : Tidy pattern.pattern.package.path
  finite : ∀ start, Start ws pattern.pattern.package start →
    ∃ dirs : List Str, dirs.length ≤ steps ∧ ∀ names d, Below m.tree m.symlink start names d → d ∈ dirs
  apart : ∀ start, Start ws pattern.pattern.package start → Apart m.tree m.symlink start
  visible : ∀ names pkg file, BuildFileOf m.tree m.symlink ws pattern names pkg file →
    (∀ n ∈ names, n ∉ skipped) → pkg.path.head? ≠ Option.some '.'
  single : ∀ names pkg file names' file', BuildFileOf m.tree m.symlink ws pattern names pkg file →
    BuildFileOf m.tree m.symlink ws pattern names' pkg file' → file = file'

end InvarianceSpec
end Bant
