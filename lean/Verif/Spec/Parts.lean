import Verif.Spec.Invariance

/-! Specification of what it is to ask for a part of a project (C136). -/
namespace Bant
namespace PartSpec
open Commands CommandSpec FileUtils FileSpec CollectSpec

/-- Whoever asks for `p`, asks for targets that `q` asks for, too. -/
def Narrower (p q : BazelPattern) : Prop := ∀ t, p.matchTarget t = true → q.matchTarget t = true

/-- Where one gets to from a directory, with names. -/
def along (dir : Str) (names : List Str) : Str := names.foldl Workspace.join dir

/-- Two names of a directory: whatever is there, can be seen with both. -/
def Alike (m : Machine) (d d' : Str) : Prop :=
  ∀ names, m.tree.list (along d names) = m.tree.list (along d' names) ∧
    m.tree.stat (along d names) = m.tree.stat (along d' names) ∧
    m.symlink (along d names) = m.symlink (along d' names) ∧
    m.fs.content (along d names) = m.fs.content (along d' names)

/-- The package of `p` is below the one of `q`, by `names`: its directory is not there, or the search for `q` gets
to it. -/
structure Within (m : Machine) (ws : Workspace.Map) (p q : BazelPattern) (names : List Str) : Prop where
  project : p.pattern.package.project = q.pattern.package.project
  path : p.pattern.package.path = below q.pattern.package.path names
  plain : ∀ n ∈ names, n ≠ [] ∧ '/' ∉ n
  deeper : names = [] ∨ q.isRecursive = true
  recursive : p.isRecursive = true → q.isRecursive = true
  always : p.kind = .alwaysMatch → p.pattern.package = ⟨[], []⟩
  seen : ∀ n ∈ names, n ∉ skipped
  there : ∀ start start', Start ws p.pattern.package start → Start ws q.pattern.package start' →
    m.tree.list start = none ∨ Below m.tree m.symlink start' names (along start' names)
  same : ∀ start start', Start ws p.pattern.package start → Start ws q.pattern.package start' →
    Alike m start (along start' names)

end PartSpec
end Bant
