import Verif.Model.TypesBazel

/-
Model of bant/tool/edit-callback.{h,cc} and bant/tool/canon-targets.cc.
-/
namespace Bant

/-- bant/tool/edit-callback.h:28-32, `enum class EditRequest`. -/
inductive EditRequest where
  | remove | add | rename
deriving DecidableEq, Repr

/-- The arguments of one invocation of an `EditCallback`
(bant/tool/edit-callback.h:45-47). -/
structure Edit where
  op : EditRequest
  target : BazelTarget
  before : Str
  after : Str
deriving DecidableEq, Repr

/-- bant/tool/edit-callback.cc:26-42, the text written by the callback that
`CreateBuildozerDepsEditCallback` returns. -/
def buildozerLine (e : Edit) : Str :=
  match e.op with
  | .remove =>
    c!"buildozer 'remove deps " ++ e.before ++ c!"' " ++ e.target.toString ++ ['\n']
  | .add =>
    c!"buildozer 'add deps " ++ e.after ++ c!"' " ++ e.target.toString ++ ['\n']
  | .rename =>
    c!"buildozer 'replace deps " ++ e.before ++ [' '] ++ e.after ++ c!"' "
      ++ e.target.toString ++ ['\n']

/-- Everything written for a sequence of edits. -/
def buildozerScript (es : List Edit) : Str := (es.map buildozerLine).flatten

/-- What the canonicalizer needs to know about one rule: `query::Result::name` and the
strings in `deps` (already extracted: `query::ExtractStringList`, which never yields
empty strings). -/
structure RuleDeps where
  name : Str
  deps : List Str

/-- bant/tool/canon-targets.cc:54-68: one dependency string. -/
def canonDep (current : BazelPackage) (self : BazelTarget) (dep : Str) : Option Edit :=
  match BazelTarget.parseFrom dep current with
  | none => none
  | some t =>
    if dep ≠ t.toStringRelativeTo current then
      some ⟨.rename, self, dep, t.toStringRelativeTo current⟩
    else none

/-- bant/tool/canon-targets.cc:43-70: one rule. -/
def canonRule (pattern : BazelPattern) (current : BazelPackage) (r : RuleDeps) : List Edit :=
  match current.qualifiedTarget r.name with
  | none => []
  | some self =>
    if pattern.matchTarget self then r.deps.filterMap (canonDep current self) else []

/-- bant/tool/canon-targets.cc:32-73, `CreateCanonicalizeEdits`: the edits in the order
they are passed to the callback. A project is given as the list of its packages with
the rules in them (in the order of the `ParsedFiles()` map). The returned edit count is
the length of the list. -/
def canonicalizeEdits (pattern : BazelPattern)
    (project : List (BazelPackage × List RuleDeps)) : List Edit :=
  project.flatMap fun (package, rules) =>
    if pattern.matchPackage package then rules.flatMap (canonRule pattern package) else []

end Bant
