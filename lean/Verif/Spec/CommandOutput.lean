import Verif.Spec.Commands
import Verif.Spec.CompDb
import Verif.Spec.Print
import Verif.Spec.WorkspaceCmd

/-! Specification of the commands that do not write a table of targets (C97 and following). -/
namespace Bant
namespace CommandSpec
open Commands Cli Query Rules Headers GraphSpec

/-- What `-g` looks for: `none` if it is not given. -/
inductive LooksFor (m : Machine) (flags : Flags) : Option Print.Find → Prop
  | all : flags.grep = [] → LooksFor m flags none
  | regex {find} : flags.grep ≠ [] → m.regex flags.grep = some find → LooksFor m flags (some find)

/-- The rules of the files (with `-E`: of files with syntax errors), and where they are. -/
def rulesFor (m : Machine) (flags : Flags) (files : Loaded) : List (Print.File × Str × Query.Result) :=
  Print.rulesIn ((files.filter fun f => !flags.onlyErrors || f.2.hasErrors).map fun f =>
    ⟨f.1, f.2.ast, f.2.hasErrors, m.callLoc f.1⟩)

/-- Of the rules in the files, those are written that the pattern asks for, and in which there is what `-g` looks
for; each with a comment line, in order. With colour, there are control sequences in between. -/
def Shows (m : Machine) (flags : Flags) (pattern : BazelPattern) (files : Loaded) (find : Option Print.Find)
    (out : Str) : Prop :=
  ∃ chosen : Print.File × Str × Query.Result → Bool,
    (∀ x ∈ rulesFor m flags files, chosen x = true ↔ Print.Asked pattern x.1.package x.2.2 ∧
      ∀ f, find = some f → ∃ w, Print.Word x.2.2.node w ∧ (f w).isSome = true) ∧
    Print.Colored (Print.printStatements (((rulesFor m flags files).filter chosen).map fun x =>
      (Print.commentOf x.1.package x.2.1 x.2.2, x.2.2.node))) out ∧
    (m.color = false → out = Print.printStatements (((rulesFor m flags files).filter chosen).map fun x =>
      (Print.commentOf x.1.package x.2.1 x.2.2, x.2.2.node)))

/-- The files with those of dependencies, and where they come from. -/
structure GrownTo (m : Machine) (ws : Workspace.Map) (pattern : BazelPattern) (depth : Nat) (files l : Loaded) :
    Prop where
  order : (l.map (·.1)).Pairwise fun a b => Ordered.lt a b = true
  each : ∀ pkg file, (pkg, file) ∈ l ↔ (pkg, file) ∈ files ∨
    (pkg ∉ files.map (·.1) ∧ (∃ t, Reached m ws pattern depth files t ∧ t.package = pkg) ∧
      ∃ name content, DepGraph.pathForPackage (world m ws) pkg = some name ∧ m.fs.content name = some content ∧
        ReadAs m true pkg name content file)

/-- The search for BUILD files ends, and external projects are in directories. -/
def Findable (m : Machine) (cmd : Command) (pattern : BazelPattern) : Prop :=
  ∀ ws, workspaceOf m = some ws → CollectSpec.Roots ws ∧
    (needsProject cmd pattern = true →
      Collect.collectBuildFiles m.tree m.symlink ws (searched cmd pattern) m.steps ≠ none)

/-- What the regular expression finds is a part of the text. -/
def Within (find : Print.Find) : Prop := ∀ s b l, find s = some (b, l) → b + l ≤ s.length

/-- In no BUILD file there is a rule for C++ called `:`, or with `include_prefix`. -/
def Tame (m : Machine) : Prop :=
  ∀ path text ast st glob out, IsBuild path → m.fs.content path = some text →
    Parser.parseFile text = some (ast, st) → Elab.elabFile glob ast = some out →
    ∀ r ∈ rulesOf [c!"cc_library", c!"cc_binary", c!"cc_test", c!"proto_library"] out,
      r.name ≠ c!":" ∧ r.includePrefix = []

end CommandSpec
end Bant
