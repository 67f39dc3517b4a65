import Verif.Spec.Workspace

/-! Specification of the command `workspace` (C75). -/
namespace Bant
namespace WorkspaceCmdSpec
open Query Rules

/-- The named rules of a file that match a pattern. -/
def Matching (pattern : BazelPattern) (pkg : BazelPackage) (ast : Node) (r : Result) : Prop :=
  r ∈ rulesOf [] ast ∧ r.rule ≠ c!"load" ∧ ∃ t, pkg.qualifiedTarget r.name = some t ∧ pattern.matchTarget t = true

/-- References of a file: what is loaded; and of each rule that matches, its dependencies and what it is an alias
for. -/
inductive Mentions (pattern : BazelPattern) (pkg : BazelPackage) (ast : Node) : Str → Prop
  | load {ty args s} : (.ident c!"load", .list ty args) ∈ sites ast → s ∈ stringsOf (some (ty, args)) →
      Mentions pattern pkg ast s
  | dep {r s} : Matching pattern pkg ast r → s ∈ stringsOf r.deps → Mentions pattern pkg ast s
  | alias {r} : Matching pattern pkg ast r → r.actual ≠ [] → Mentions pattern pkg ast r.actual

/-- Also what is mentioned in other attributes for files. -/
inductive MentionsAny (pattern : BazelPattern) (pkg : BazelPackage) (ast : Node) : Str → Prop
  | ref {s} : Mentions pattern pkg ast s → MentionsAny pattern pkg ast s
  | src {r s} : Matching pattern pkg ast r → s ∈ stringsOf r.srcs → MentionsAny pattern pkg ast s
  | hdr {r s} : Matching pattern pkg ast r → s ∈ stringsOf r.hdrs → MentionsAny pattern pkg ast s

/-- Another project that is used in the files of matching packages. -/
def Uses (mentions : BazelPackage → Node → Str → Prop) (pattern : BazelPattern)
    (files : List (BazelPackage × Node)) (project : Str) : Prop :=
  ∃ pkg ast s t, (pkg, ast) ∈ files ∧ pattern.matchPackage pkg = true ∧ mentions pkg ast s ∧
    BazelTarget.parseFrom s pkg = some t ∧ t.package.project = project ∧ project ≠ [] ∧ project ≠ pkg.project

/-- Files in which calls, and lists, are complete. -/
def Readable (files : List (BazelPackage × Node)) : Prop := ∀ f ∈ files, Complete f.2

/-- The entry with the smallest version for a name. -/
def Lowest (global : Workspace.Map) (e : VersionedProject × Str) : Prop :=
  ∀ x ∈ global, x.1.project = e.1.project → ¬ x.1.version < e.1.version

end WorkspaceCmdSpec
end Bant
