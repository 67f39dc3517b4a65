import Verif.Spec.Commands
import Verif.Spec.Stable

/-! Specification of the commands that suggest edits (C92, C93). -/
namespace Bant
namespace CommandSpec
open Commands Cli Query Rules Headers GraphSpec StableSpec

/-- A run prints commands for `buildozer`; the status says whether there are any. -/
def Suggests (m : Machine) (flags : Flags) (cmd : Command) (pattern : BazelPattern) (message : Str)
    (edits : List Edit) : Prop :=
  runCommand m flags cmd pattern = some ⟨if edits = [] then 0 else 3, buildozerScript edits, message⟩

/-- The dependencies of the rules that match, in the order of files, rules and lists. -/
def matchingDeps (pattern : BazelPattern) (files : Files) : List (BazelTarget × Str) :=
  files.flatMap fun f => (rulesOf [] f.2).flatMap fun r =>
    match f.1.qualifiedTarget r.name with
    | none => []
    | some t => if pattern.matchTarget t then (stringsOf r.deps).map fun dep => (t, dep) else []

/-- `dep` is the name of a target, but not its shortest one in the package. -/
def long (pkg : BazelPackage) (dep : Str) : Bool :=
  (BazelTarget.parseFrom dep pkg).any fun t => dep ≠ t.toStringRelativeTo pkg

/-- There is one edit for each of the dependencies that is too long, in their order, that makes it short. -/
structure Shortens (deps : List (BazelTarget × Str)) (edits : List Edit) : Prop where
  each : (edits.map fun e => (e.target, e.before)) = deps.filter fun x => long x.1.package x.2
  short : ∀ e ∈ edits, e.op = .rename ∧ ∃ t, BazelTarget.parseFrom e.before e.target.package = some t ∧
    e.after = t.toStringRelativeTo e.target.package

/-- All dependencies have a name, and those in other projects name the project. -/
def Nameable (deps : List (BazelTarget × Str)) : Prop :=
  ∀ x ∈ deps, ∀ t, BazelTarget.parseFrom x.2 x.1.package = some t → t.package.project ≠ c!"@" ∧ t.name ≠ []

/-- `m'` is `m` when the edits have been carried out, as far as the files are concerned that are opened for
the pattern: the directories are the same, and of each package the same file is read. -/
structure CarriedOut (edits : List Edit) (evaluate : Bool) (m m' : Machine) (ws : Workspace.Map)
    (pattern : BazelPattern) (found : List Str) : Prop where
  tree : m'.tree = m.tree
  symlink : m'.symlink = m.symlink
  steps : m'.steps = m.steps
  workspace : workspaceOf m' = workspaceOf m
  readable : ∀ path, m'.fs.canRead path = m.fs.canRead path
  build : ∀ pkg,
    (firstReadable m ws pattern.pattern.package.project pkg found = none ∧
      firstReadable m' ws pattern.pattern.package.project pkg found = none) ∨
    ∃ name text text' file file',
      firstReadable m ws pattern.pattern.package.project pkg found = some (name, text) ∧
      firstReadable m' ws pattern.pattern.package.project pkg found = some (name, text') ∧
      ReadAs m evaluate pkg name text file ∧ ReadAs m' evaluate pkg name text' file' ∧
      Pairs (EditedRule edits pkg) (rulesOf [] file.ast) (rulesOf [] file'.ast)

/-- Each package that is read before or after (`now`, `now'`) is what the edits make of it. -/
def EditedPackages (edits : List Edit) (m m' : Machine) (ws : Workspace.Map) (files files' : Loaded)
    (now now' : Files) : Prop :=
  ∀ pkg, pkg ∈ now.map (·.1) ∨ pkg ∈ now'.map (·.1) →
    ∃ ast ast', GraphSpec.treeOf (world m ws) (trees files) pkg = some ast ∧
      GraphSpec.treeOf (world m' ws) (trees files') pkg = some ast' ∧
      Pairs (EditedRule edits pkg) (rulesOf [] ast) (rulesOf [] ast')

/-- Comments of packages that are read both times. -/
def CommentsIn (env env' : Dwyu.Env) (now now' : Files) : Prop :=
  ∀ pkg ast ast', (pkg, ast) ∈ now → (pkg, ast') ∈ now' →
    Pairs (SameComments env env' pkg) (rulesOf [] ast) (rulesOf [] ast')

/-- What there is for DWYU apart from BUILD files. -/
def sourcesFor (m : Machine) (ws : Workspace.Map) (flags : Flags) : Dwyu.Env :=
  ⟨m.fs.content, ws, m.line, flags.ignoreKeep⟩

end CommandSpec
end Bant
