import Verif.Model.TypesBazel

/-! Specification vocabulary for packages and targets, independent of how the code
parses and prints them. -/
namespace Bant.Spec

/-- Join path components with `/`. -/
def joinPath : List Str → Str
  | [] => []
  | [x] => x
  | x :: y :: ys => x ++ '/' :: joinPath (y :: ys)

/-- A single path component: not empty, no separators. -/
def WfComponent (c : Str) : Prop := c ≠ [] ∧ '/' ∉ c ∧ ':' ∉ c

/-- A package path: components separated by single slashes. -/
def WfPath (p : Str) : Prop :=
  ∃ comps : List Str, (∀ c ∈ comps, WfComponent c) ∧ p = joinPath comps

/-- Project names: empty for the main project, else `@` and a non-empty name. -/
def WfProject (pr : Str) : Prop :=
  pr = [] ∨ ∃ r, pr = '@' :: r ∧ r ≠ [] ∧ '/' ∉ r ∧ ':' ∉ r ∧ '~' ∉ r

def WfPackage (p : BazelPackage) : Prop := WfProject p.project ∧ WfPath p.path

/-- A target name may contain slashes (files in sub directories) but no colon. -/
def WfTarget (t : BazelTarget) : Prop :=
  WfPackage t.package ∧ t.name ≠ [] ∧ ':' ∉ t.name

/-- Where a label that mentions no project is looked up: in the project of the
package in which the label is written. -/
def inContext (t : BazelTarget) (ctx : BazelPackage) : BazelTarget :=
  if t.package.project = [] then
    { t with package := { t.package with project := ctx.project } }
  else t

end Bant.Spec
