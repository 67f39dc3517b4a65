import Verif.Model.DepGraph
import Verif.Spec.Headers
import Verif.Spec.Meaning

/-! Specification of the dependency graph (C30, C31, C32, C62). -/
namespace Bant
namespace GraphSpec
open Query Rules Headers DepGraph

/-- The tree of a package: of the loaded file, or else the one that is loaded on demand. -/
def treeOf (w : World) (files : Files) (pkg : BazelPackage) : Option Node :=
  match lookup files pkg with
  | some ast => some ast
  | none =>
    match load w pkg with
    | some (some ast) => some ast
    | _ => none

/-- `r` is the first rule in the file of the package that has the name of the target. -/
def Defines (w : World) (files : Files) (t : BazelTarget) (r : Result) : Prop :=
  ∃ ast before after, treeOf w files t.package = some ast ∧ rulesOf [] ast = before ++ r :: after ∧
    t.package.qualifiedTarget r.name = some t ∧
    ∀ r' ∈ before, t.package.qualifiedTarget r'.name ≠ some t

/-- What a rule depends on: its `deps`, and what it is an alias for. -/
def depsOf (pkg : BazelPackage) (r : Result) : List BazelTarget :=
  (stringsOf r.deps ++ if r.actual = [] then [] else [r.actual]).filterMap (BazelTarget.parseFrom · pkg)

/-- `t` depends directly on `u`. -/
def Edge (w : World) (files : Files) (t u : BazelTarget) : Prop :=
  ∃ r, Defines w files t r ∧ u ∈ depsOf t.package r

/-- A rule in the loaded files that matches the pattern. -/
def Root (pattern : BazelPattern) (files : Files) (t : BazelTarget) : Prop :=
  ∃ f ∈ files, ∃ r ∈ rulesOf [] f.2, f.1.qualifiedTarget r.name = some t ∧ pattern.matchTarget t = true

/-- `t` can be reached in `n` steps. -/
inductive ReachIn (w : World) (pattern : BazelPattern) (files : Files) : Nat → BazelTarget → Prop
  | root {t} : Root pattern files t → ReachIn w pattern files 0 t
  | step {n t u} : ReachIn w pattern files n t → Edge w files t u → ReachIn w pattern files (n + 1) u

/-- `t` can be reached. -/
def Reach (w : World) (pattern : BazelPattern) (files : Files) (t : BazelTarget) : Prop :=
  ∃ n, ReachIn w pattern files n t

/-- Nothing that happens when a package is loaded is undefined, and the tree can be searched. -/
def LoadsWell (w : World) (pkg : BazelPackage) : Prop :=
  ∃ tree, load w pkg = some tree ∧ ∀ ast, tree = some ast → Searchable ast

/-- The file is called BUILD, or BUILD.bazel. -/
def IsBuild (path : Str) : Prop :=
  ∃ name ∈ [c!"BUILD", c!"BUILD.bazel"], path = name ∨ ('/' :: name) <:+ path

/-- A BUILD file in which nothing is missing that is looked at, before and after evaluation. It may have syntax
errors. Files without errors that do not call what they assign are of this kind (`C56_usable`). -/
def UsableText (text : Str) : Prop :=
  ∃ ast st, Parser.parseFile text = some (ast, st) ∧ Complete ast ∧
    ∀ glob, ∃ out, Elab.elabFile glob ast = some out ∧ Complete out

/-- The recorded dependencies of a target. -/
def dependencies (g : Graph) (t : BazelTarget) : List BazelTarget := (lookup g.dependsOn t).getD []

/-- The recorded dependents of a target. -/
def dependents (g : Graph) (t : BazelTarget) : List BazelTarget := (lookup g.hasDependents t).getD []

end GraphSpec
end Bant
