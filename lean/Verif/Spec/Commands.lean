import Verif.Model.Commands
import Verif.Spec.Collect
import Verif.Spec.DepGraph

/-! Specification of the commands (C81 and following). -/
namespace Bant
namespace CommandSpec
open Commands Cli Query Rules Headers GraphSpec

/-- The external projects, or nothing if this is not a project. -/
def workspaceOf (m : Machine) : Option Workspace.Map :=
  match Workspace.load m.fs with
  | some (some ws) => some (Workspace.augment m.fs ws).2
  | _ => none

/-- Of the given files, the first one for a package that can be read, and its content. -/
def firstReadable (m : Machine) (ws : Workspace.Map) (project : Str) (pkg : BazelPackage) :
    List Str → Option (Str × Str)
  | [] => none
  | f :: fs =>
    if Collect.packageOf ws f project = some (some pkg) then
      match m.fs.content f with
      | some content => some (f, content)
      | none => firstReadable m ws project pkg fs
    else firstReadable m ws project pkg fs

/-- `file` is the result of reading the content of a file of that name; `evaluate`: with variables and
operators evaluated. -/
def ReadAs (m : Machine) (evaluate : Bool) (pkg : BazelPackage) (name content : Str) (file : File) : Prop :=
  ∃ ast st, Parser.parseFile content = some (ast, st) ∧ file.name = name ∧
    (file.hasErrors = true ↔ st.errs ≠ []) ∧
    if evaluate then Elab.elabFile (m.glob pkg) ast = some file.ast else file.ast = ast

/-- `l` are the files that are opened for a pattern: for each package the first that can be read of those
that are found for the pattern (`C33`, `C50` and `C63` are about these), in the order of packages. -/
structure OpenedFor (m : Machine) (ws : Workspace.Map) (evaluate : Bool) (pattern : BazelPattern)
    (found : List Str) (l : Loaded) : Prop where
  files : Collect.collectBuildFiles m.tree m.symlink ws pattern m.steps = some found
  order : (l.map (·.1)).Pairwise fun a b => Ordered.lt a b = true
  each : ∀ pkg file, (pkg, file) ∈ l ↔
    ∃ name content, firstReadable m ws pattern.pattern.package.project pkg found = some (name, content) ∧
      ReadAs m evaluate pkg name content file

/-- The pattern that files are looked for with: to know what depends on something, everything has to be
read. -/
def searched (cmd : Command) (pattern : BazelPattern) : BazelPattern :=
  if cmd = .hasDependents then .always else pattern

/-- Whether expressions are evaluated when a file is opened. -/
def evaluates (flags : Flags) (cmd : Command) : Bool :=
  flags.elaborate || (cmd = .dwyu || cmd = .compilationDB || cmd = .compileFlags)

/-- What a run begins with: the external projects, the files that are found for the pattern, and those that are
opened. -/
structure Starts (m : Machine) (flags : Flags) (cmd : Command) (pattern : BazelPattern) (ws : Workspace.Map)
    (found : List Str) (files : Loaded) : Prop where
  workspace : workspaceOf m = some ws
  roots : CollectSpec.Roots ws
  opened : OpenedFor m ws (evaluates flags cmd) (searched cmd pattern) found files

/-- The message if nothing is found. -/
def note (found : List Str) : Str :=
  if found = [] then c!"Pattern did not match any dir with BUILD file.\n" else []

/-- A run succeeds, and writes a table. -/
def Prints (m : Machine) (flags : Flags) (cmd : Command) (pattern : BazelPattern) (message : Str)
    (headers : List Str) (rows : List Table.Op) : Prop :=
  ∃ out, runCommand m flags cmd pattern = some ⟨0, out, message⟩ ∧ Table.output flags.format headers rows = some out

/-- Rows for targets, each with others. -/
def grouped (es : List (BazelTarget × List BazelTarget)) : List Table.Op :=
  es.map fun e => .repeated [e.1.toString] (e.2.map BazelTarget.toString)

/-- How far dependencies are followed by commands that need all of them, if nothing else is said. -/
def limit (flags : Flags) : Nat := if flags.depth ≤ 0 then 2147483647 else flags.depth.toNat

/-- Whether a target is printed: if dependencies are followed, all are. -/
def shown (flags : Flags) (pattern : BazelPattern) (t : BazelTarget) : Bool :=
  decide (0 < flags.depth) || pattern.matchTarget t

/-- All BUILD files are good: what has read permission can be read, and nothing is missing in it. -/
structure Healthy (m : Machine) : Prop where
  readable : ∀ path, IsBuild path → m.fs.canRead path = true → m.fs.content path ≠ none
  usable : ∀ path text, IsBuild path → m.fs.content path = some text → UsableText text

/-- What the dependencies of a target depend on. -/
def world (m : Machine) (ws : Workspace.Map) : DepGraph.World := ⟨m.fs, ws, m.glob⟩

/-- A target that is reached from the matching ones within some number of steps. -/
def Reached (m : Machine) (ws : Workspace.Map) (pattern : BazelPattern) (depth : Nat) (files : Loaded)
    (t : BazelTarget) : Prop :=
  ∃ n, n ≤ depth ∧ ReachIn (world m ws) pattern (trees files) n t

/-- `now` are the files when dependencies have been followed: those that were there, and those of packages
with a target that has been reached. -/
structure Grown (m : Machine) (ws : Workspace.Map) (pattern : BazelPattern) (depth : Nat) (files : Loaded)
    (now : Files) : Prop where
  order : (now.map (·.1)).Pairwise fun a b => Ordered.lt a b = true
  each : ∀ pkg ast, (pkg, ast) ∈ now ↔ (pkg, ast) ∈ trees files ∨
    (pkg ∉ files.map (·.1) ∧ DepGraph.load (world m ws) pkg = some (some ast) ∧
      ∃ t, Reached m ws pattern depth files t ∧ t.package = pkg)

/-- The targets of a file: the place of the rule, its kind, and what it is called. -/
def targetsOf (f : BazelPackage × Node) : List (Nat × Str × BazelTarget) :=
  ((rulesOf [] f.2).zipIdx.filter fun x => ':' ∉ x.1.name).map fun x => (x.2, x.1.rule, ⟨f.1, x.1.name⟩)

/-- The aliases of `t`, in the order of files and rules. -/
def aliasesFor (files : Files) (t : BazelTarget) : List BazelTarget :=
  files.flatMap fun f => (rulesOf [c!"alias"] f.2).filterMap fun r =>
    if r.hasActual = true ∧ BazelTarget.parseFrom r.actual f.1 = some t then f.1.qualifiedTarget r.name else none

/-- The keys are sorted. -/
def SortedKeys {α : Type} (l : List (Str × α)) : Prop := l.Pairwise fun a b => strLt a.1 b.1 = true

end CommandSpec
end Bant
