import Verif.Model.Cli
import Verif.Model.Collect
import Verif.Model.CompDb
import Verif.Model.DepGraph
import Verif.Model.Dwyu
import Verif.Model.PrintProject
import Verif.Model.WorkspaceCmd

/-
Model of `RunCommand` in bant/cli-commands.cc, and of the output in bant/explore/header-providers.cc.
`none`: undefined behaviour, a failed `CHECK`, or no end.

Of what is written to standard error, only the messages of `RunCommand` itself are modelled; not the one
for an invalid regular expression. The statistics with `-v` are in `Verif.Model.Stats`.
-/
namespace Bant
namespace Commands
open Query Headers Cli

/-- What is outside. `tree`, `fs`, `symlink`: the directories and files; `steps`: the number of directories
that are visited at most; `base`: where the content of a file is put in memory; `glob`: the result of `glob()`
in a package; `cwd`: the current directory; `regex`: what a regular expression finds (`none`: it is not
valid); `color`: whether the output is colored; `nameLoc`, `callLoc`: for each rule of a package, the location
of its name, and of its kind; `line`: the line of a dependency. -/
structure Machine where
  fs : Workspace.FileSystem
  tree : FileUtils.Tree
  symlink : Str → Bool
  steps : Nat
  base : Str → Nat
  glob : BazelPackage → Elab.GlobFn
  cwd : Str
  regex : Str → Option Print.Find
  color : Bool
  nameLoc : BazelPackage → Nat → Str
  callLoc : BazelPackage → Nat → Str
  line : Result → BazelTarget → Nat → Str

/-- What is used of a `ParsedBuildFile` (bant/frontend/parsed-project.h:39-62). -/
structure File where
  name : Str
  ast : Node
  hasErrors : Bool

/-- `ParsedProject::ParsedFiles()` in the order of iteration. -/
abbrev Loaded := List (BazelPackage × File)

/-- Packages and trees. -/
def trees (l : Loaded) : Files := l.map fun f => (f.1, f.2.ast)

/-! ### The project -/

/-- The files of a project, in the order of the map. -/
def inOrder (p : Project.State) : Loaded :=
  p.files.foldl (fun l f => place (·.1) (f.1, ⟨f.2.source.name, f.2.ast, !f.2.errors.isEmpty⟩) l) []

/-- bant/cli-commands.cc:94-100, `NeedsProjectPopulated`. -/
def needsProject (cmd : Command) (pattern : BazelPattern) : Bool :=
  !(cmd = .listWorkspace && pattern.isMatchall)

/-- bant/cli-commands.cc:120-121 -/
def depPattern (cmd : Command) (pattern : BazelPattern) : BazelPattern :=
  if cmd = .hasDependents then .always else pattern

/-- bant/cli-commands.cc:132-136 -/
def depthOf (flags : Flags) (cmd : Command) : Int :=
  if flags.depth ≤ 0 ∧ cmd ∈ [Command.dwyu, .hasDependents, .compilationDB, .compileFlags] then intMax
  else flags.depth

/-- bant/cli-commands.cc:138-140 -/
def elaborates (flags : Flags) (cmd : Command) : Bool :=
  flags.elaborate || cmd ∈ [Command.dwyu, .compilationDB, .compileFlags]

/-- bant/cli-commands.cc:147-157 -/
def usesGraph (cmd : Command) : Bool :=
  cmd ∈ [Command.dwyu, .parse, .libraryHeaders, .genruleOutputs, .listTargets, .listPackages, .dependsOn,
    .hasDependents, .compilationDB, .compileFlags]

/-- bant/cli-commands.cc:181-182 -/
def printPattern (flags : Flags) (cmd : Command) (pattern : BazelPattern) : BazelPattern :=
  if depthOf flags cmd > 0 then .always else pattern

/-- bant/frontend/elaboration.cc:307-311, `Elaborate` for a project. -/
def elaborateAll (glob : BazelPackage → Elab.GlobFn) : Loaded → Option Loaded
  | [] => some []
  | f :: fs =>
    match Elab.elabFile (glob f.1) f.2.ast, elaborateAll glob fs with
    | some ast, some rest => some ((f.1, { f.2 with ast := ast }) :: rest)
    | _, _ => none

/-- What there is of a package that was loaded for the graph, given its tree (bant/explore/dependency-graph.cc:
79-87). There is a path, otherwise it would not have been loaded. -/
def added (w : DepGraph.World) (pkg : BazelPackage) (ast : Node) : File :=
  match DepGraph.pathForPackage w pkg with
  | none => ⟨[], ast, false⟩
  | some name =>
    ⟨name, ast, match w.fs.content name with
      | none => false
      | some content =>
        match Parser.parseFile content with
        | none => false
        | some (_, st) => !st.errs.isEmpty⟩

/-- The files after the graph has been built. -/
def expanded (w : DepGraph.World) (l : Loaded) (now : Files) : Loaded :=
  now.map fun f => (f.1, (lookup l f.1).getD (added w f.1 f.2))

/-- The variables of `RunCommand` when the command itself begins. -/
structure Prepared where
  workspace : Workspace.Map
  files : Loaded
  graph : DepGraph.Graph := {}
  message : Str := []

/-- bant/cli-commands.cc:109-110 -/
def noWorkspace : Str := c!"Didn't find any workspace file. Is this a bazel project root ?\n"

/-- bant/cli-commands.cc:128 -/
def noBuildFile : Str := c!"Pattern did not match any dir with BUILD file.\n"

/-- bant/cli-commands.cc:125-130: the files for the pattern, and the message. -/
def fill (m : Machine) (ws : Workspace.Map) (cmd : Command) (pattern : BazelPattern) : Option (Loaded × Str) :=
  if needsProject cmd pattern then
    (Collect.fillFromPattern m.tree m.symlink ws m.fs.content m.base {} (depPattern cmd pattern) m.steps).map
      fun r => (inOrder r.1, if r.2 = 0 then noBuildFile else [])
  else some ([], [])

/-- bant/cli-commands.cc:144-176: the graph. -/
def follow (m : Machine) (ws : Workspace.Map) (flags : Flags) (cmd : Command) (pattern : BazelPattern)
    (files : Loaded) : Option (Loaded × DepGraph.Graph) :=
  if usesGraph cmd && depthOf flags cmd ≥ 0 then
    let w : DepGraph.World := ⟨m.fs, ws, m.glob⟩
    (DepGraph.build w (depPattern cmd pattern) (depthOf flags cmd) (trees files)).map fun r =>
      (expanded w files r.1, r.2)
  else some (files, {})

/-- bant/cli-commands.cc:125-142: the files that are there before the graph is built, and the message. -/
def opened (m : Machine) (ws : Workspace.Map) (flags : Flags) (cmd : Command) (pattern : BazelPattern) :
    Option (Loaded × Str) :=
  (fill m ws cmd pattern).bind fun r =>
    if elaborates flags cmd then (elaborateAll m.glob r.1).map (·, r.2) else some r

/-- bant/cli-commands.cc:113-176: with a workspace, everything that is done before the command. -/
def prepareIn (m : Machine) (ws : Workspace.Map) (flags : Flags) (cmd : Command) (pattern : BazelPattern) :
    Option Prepared :=
  (opened m ws flags cmd pattern).bind fun o =>
    (follow m ws flags cmd pattern o.1).map fun r => ⟨ws, r.1, r.2, o.2⟩

/-- bant/cli-commands.cc:107-176. The inner `none`: there is no workspace. -/
def prepare (m : Machine) (flags : Flags) (cmd : Command) (pattern : BazelPattern) : Option (Option Prepared) :=
  match Workspace.load m.fs with
  | none => none
  | some none => some none
  | some (some ws) => (prepareIn m (Workspace.augment m.fs ws).2 flags cmd pattern).map some

/-! ### Tables -/

/-- bant/cli-commands.cc:77-92, `PrintOneToN`: the rows. -/
def oneToN (pattern : BazelPattern) (table : List (BazelTarget × List BazelTarget)) : List Table.Op :=
  (table.filter fun d => pattern.matchTarget d.1).map fun d =>
    .repeated [d.1.toString] (d.2.map BazelTarget.toString)

/-- bant/cli-commands.cc:227-229: the rows. -/
def packageRows (files : Loaded) : List Table.Op := files.map fun f => .row [f.2.name, f.1.toString]

/-- bant/cli-commands.cc:238-249: the rows for one file; `k` counts the rules. -/
def targetRows (loc : Nat → Str) (pattern : BazelPattern) (pkg : BazelPackage) :
    Nat → List Result → List Table.Op
  | _, [] => []
  | k, r :: rs =>
    (match BazelTarget.parseFrom (':' :: r.name) pkg with
      | none => []
      | some t => if pattern.matchTarget t then [.row [loc k, r.rule, t.toString]] else []) ++
      targetRows loc pattern pkg (k + 1) rs

/-- bant/cli-commands.cc:237-250: the rows. -/
def allTargetRows (loc : BazelPackage → Nat → Str) (pattern : BazelPattern) : Files → Option (List Table.Op)
  | [] => some []
  | f :: fs =>
    match findTargets false f.2 [], allTargetRows loc pattern fs with
    | some rs, some rest => some (targetRows (loc f.1) pattern f.1 0 rs ++ rest)
    | _, _ => none

/-- bant/explore/aliased-by.cc:26-39, `ExtractAliasedBy`: the map. -/
def aliasMap (files : Files) : Option (List (BazelTarget × List BazelTarget)) :=
  (extractAliasedBy files).map fun l => l.foldl (fun m e => push e.1 e.2 m) []

/-- bant/explore/header-providers.cc:297-315, `ExtractHeaderToLibMapping`: the map, without `suffix_index`. -/
def headerMap (files : Files) : Option (StrMap (List BazelTarget)) :=
  (headerAdds files).map fun l => l.foldl (fun m e => m.update e.1 [] (Bant.add e.2)) []

/-- bant/explore/header-providers.cc:427-442: the rows. -/
def headerRows (pattern : BazelPattern) (m : StrMap (List BazelTarget)) : List Table.Op :=
  m.map fun e => .repeated [e.1] ((e.2.filter pattern.matchTarget).map BazelTarget.toString)

/-- bant/explore/header-providers.cc:317-352, `ExtractGeneratedFromGenrule`: the map, without `suffix_index`. -/
def genruleMap (files : Files) : Option (StrMap BazelTarget) :=
  (genruleAdds files).map fun l => l.foldl (fun m e => m.update e.1 e.2 id) []

/-- bant/explore/header-providers.cc:414-425: the rows. -/
def genruleRows (pattern : BazelPattern) (m : StrMap BazelTarget) : List Table.Op :=
  (m.filter fun e => pattern.matchTarget e.2).map fun e => .row [e.1, e.2.toString]

/-! ### Commands -/

/-- bant/frontend/parsed-project.cc:252-308, `PrintProject`. -/
def printed (m : Machine) (flags : Flags) (pattern : BazelPattern) (files : Loaded) : Option Str :=
  let run (find : Option Print.Find) : Option Str :=
    Print.printProject ⟨flags.onlyErrors, find, m.color⟩ pattern
      (files.map fun f => ⟨f.1, f.2.ast, f.2.hasErrors, m.callLoc f.1⟩)
  if flags.grep = [] then run none
  else
    match m.regex flags.grep with
    | none => some []
    | some find => run (some find)

/-- bant/tool/canon-targets.cc:32-73, `CreateCanonicalizeEdits`. -/
def canonEdits (pattern : BazelPattern) (files : Files) : Option (List Edit) :=
  mapAll (fun f =>
      if !pattern.matchPackage f.1 then some []
      else forTargets f.2 [] fun r =>
        match f.1.qualifiedTarget r.name with
        | none => some []
        | some self =>
          if !pattern.matchTarget self then some []
          else (stringList r.deps).map fun deps => canonRule pattern f.1 ⟨r.name, deps⟩)
    files

/-- What is written, and the status. -/
abbrev Result := Nat × Str

/-- A table, and success. -/
def table (flags : Flags) (headers : List Str) (rows : Option (List Table.Op)) : Option Result :=
  rows.bind fun rows => (Table.output flags.format headers rows).map fun s => (0, s)

/-- Edits; the status is different if there are any (`kExitCleanupFindings`, bant/cli-commands.h:31). -/
def edits (l : Option (List Edit)) : Option Result :=
  l.map fun es => (if es.length > 0 then 3 else 0, buildozerScript es)

/-- bant/cli-commands.cc:185-283: the command. -/
def perform (m : Machine) (flags : Flags) (cmd : Command) (pattern : BazelPattern) (p : Prepared) :
    Option Result :=
  let files := trees p.files
  let shown := printPattern flags cmd pattern
  match cmd with
  | .print => (printed m flags pattern p.files).map fun s => (0, s)
  | .parse =>
    if flags.printAst || flags.onlyErrors then (printed m flags pattern p.files).map fun s => (0, s)
    else some (0, [])
  | .libraryHeaders => table flags [c!"header", c!"providing-rule"] ((headerMap files).map (headerRows shown))
  | .genruleOutputs =>
    table flags [c!"generated-file", c!"providing-rule"] ((genruleMap files).map (genruleRows shown))
  | .dwyu =>
    edits (Dwyu.createDependencyEdits ⟨m.fs.content, p.workspace, m.line, flags.ignoreKeep⟩ pattern files)
  | .canonicalizeDeps => edits (canonEdits pattern files)
  | .listPackages => table flags [c!"bazel-file", c!"package"] (some (packageRows p.files))
  | .listTargets => table flags [c!"file-location", c!"rule", c!"target"] (allTargetRows m.nameLoc shown files)
  | .listWorkspace =>
    (WorkspaceCmd.output flags.format p.workspace pattern files).map fun s => (0, s)
  | .aliasedBy => table flags [c!"actual", c!"aliased-by"] ((aliasMap files).map (oneToN shown))
  | .dependsOn => table flags [c!"library", c!"depends-on"] (some (oneToN shown p.graph.dependsOn))
  | .hasDependents => table flags [c!"library", c!"has-dependent"] (some (oneToN pattern p.graph.hasDependents))
  | .compilationDB =>
    (CompDb.database p.workspace m.cwd (m.fs.content c!".bazelrc") pattern files).map fun s => (0, s)
  | .compileFlags => (CompDb.flags p.workspace (m.fs.content c!".bazelrc") files).map fun s => (0, s)

/-- bant/cli-commands.cc:102-285, `RunCommand`. -/
def runCommand (m : Machine) (flags : Flags) (cmd : Command) (pattern : BazelPattern) : Option Ran :=
  match prepare m flags cmd pattern with
  | none => none
  | some none => some ⟨1, [], noWorkspace⟩
  | some (some p) => (perform m flags cmd pattern p).map fun r => ⟨r.1, r.2, p.message⟩

/-- The whole program; what is outside depends on the directory. -/
def bant (env : Env) (m : List Str → Machine) (args : List Str) : Option Outcome :=
  Cli.main env (fun cd => runCommand (m cd)) args

end Commands
end Bant
