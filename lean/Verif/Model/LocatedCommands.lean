import Verif.Model.Commands
import Verif.Model.Located

/-!
`RunCommand` (bant/cli-commands.cc) with the places of the texts: the locations that `list-targets` and `print`
write, and the lines that `dwyu` looks at, are computed from the files. What is not about places is as in
`Verif.Model.Commands`; that it is the same is `Verif.Lemmas.LocatedCommands`.

`none`: undefined behaviour, a failed `CHECK` (also that a location is not known), or no end.
-/
namespace Bant
namespace Located
open Commands Headers Cli
open Query (mapAll)

/-- What is used of a `ParsedBuildFile` (bant/frontend/parsed-project.h:39-62), with the places. -/
structure Held where
  source : Source
  tree : Tree
  hasErrors : Bool

/-- Without places. -/
def Held.plain (f : Held) : Commands.File := ⟨f.source.name, f.tree.plain, f.hasErrors⟩

/-- `ParsedProject::ParsedFiles()` in the order of iteration. -/
abbrev Holding := List (BazelPackage × Held)

/-- Without places. -/
def plainOf (l : Holding) : Loaded := l.map fun f => (f.1, f.2.plain)

/-- Do something for all elements of a list. -/
def each {α β : Type} (f : α → Option β) : List α → Option (List β)
  | [] => some []
  | x :: xs =>
    match f x, each f xs with
    | some y, some ys => some (y :: ys)
    | _, _ => none

/-! ### The files -/

/-- bant/frontend/parsed-project.cc:179-210: a file that is loaded, with the places in its tree. -/
def held (f : BazelPackage × Project.BuildFile) : Option (BazelPackage × Held) :=
  (parseFile f.2.source.content).map fun r =>
    (f.1, ⟨⟨f.2.source.name, f.2.source.content, f.2.source.lines⟩, r.1, !f.2.errors.isEmpty⟩)

/-- The files of a project, in the order of the map. -/
def inOrder (p : Project.State) : Option Holding :=
  each held (p.files.foldl (fun l f => place (·.1) f l) [])

/-- bant/cli-commands.cc:125-130 -/
def fill (m : Machine) (ws : Workspace.Map) (cmd : Command) (pattern : BazelPattern) : Option (Holding × Str) :=
  if needsProject cmd pattern then
    (Collect.fillFromPattern m.tree m.symlink ws m.fs.content m.base {} (depPattern cmd pattern) m.steps).bind
      fun r => (inOrder r.1).map (·, if r.2 = 0 then noBuildFile else [])
  else some ([], [])

/-- bant/frontend/elaboration.cc:307-311, `Elaborate` for a project. -/
def elaborateAll (glob : BazelPackage → Elab.GlobFn) (l : Holding) : Option Holding :=
  each (fun f => (elabFile (glob f.1) f.2.tree).map fun t => (f.1, { f.2 with tree := t })) l

/-- bant/cli-commands.cc:125-142 -/
def opened (m : Machine) (ws : Workspace.Map) (flags : Flags) (cmd : Command) (pattern : BazelPattern) :
    Option (Holding × Str) :=
  (fill m ws cmd pattern).bind fun r =>
    if elaborates flags cmd then (elaborateAll m.glob r.1).map (·, r.2) else some r

/-- bant/explore/dependency-graph.cc:79-87: a package that was loaded for the graph. -/
def added (w : DepGraph.World) (pkg : BazelPackage) : Option Held :=
  (DepGraph.pathForPackage w pkg).bind fun name =>
    (w.fs.content name).bind fun content =>
      (parseFile content).bind fun r =>
        (elabFile (w.glob pkg) r.1).map fun t =>
          ⟨⟨name, content, (Project.scanTimes r.2.scans (Scanner.init content)).lines⟩, t, !r.2.errs.isEmpty⟩

/-- The files after the graph has been built; `now` are their packages. -/
def expanded (w : DepGraph.World) (l : Holding) (now : List BazelPackage) : Option Holding :=
  each (fun pkg =>
      match lookup l pkg with
      | some f => some (pkg, f)
      | none => (added w pkg).map (pkg, ·))
    now

/-- bant/cli-commands.cc:144-176: the graph. -/
def follow (m : Machine) (ws : Workspace.Map) (flags : Flags) (cmd : Command) (pattern : BazelPattern)
    (files : Holding) : Option (Holding × DepGraph.Graph) :=
  if usesGraph cmd && depthOf flags cmd ≥ 0 then
    let w : DepGraph.World := ⟨m.fs, ws, m.glob⟩
    (DepGraph.build w (depPattern cmd pattern) (depthOf flags cmd) (trees (plainOf files))).bind fun r =>
      (expanded w files (r.1.map (·.1))).map (·, r.2)
  else some (files, {})

/-- The variables of `RunCommand` when the command itself begins. -/
structure Ready where
  workspace : Workspace.Map
  files : Holding
  graph : DepGraph.Graph
  message : Str

/-- Without places. -/
def Ready.plain (p : Ready) : Prepared := ⟨p.workspace, plainOf p.files, p.graph, p.message⟩

/-- bant/cli-commands.cc:113-176 -/
def prepareIn (m : Machine) (ws : Workspace.Map) (flags : Flags) (cmd : Command) (pattern : BazelPattern) :
    Option Ready :=
  (opened m ws flags cmd pattern).bind fun o =>
    (follow m ws flags cmd pattern o.1).map fun r => ⟨ws, r.1, r.2, o.2⟩

/-- bant/cli-commands.cc:107-176. The inner `none`: there is no workspace. -/
def prepare (m : Machine) (flags : Flags) (cmd : Command) (pattern : BazelPattern) : Option (Option Ready) :=
  match Workspace.load m.fs with
  | none => none
  | some none => some none
  | some (some ws) => (prepareIn m (Workspace.augment m.fs ws).2 flags cmd pattern).map some

/-! ### `list-targets` -/

/-- bant/cli-commands.cc:238-249: the rows for one file. -/
def targetRows (s : Source) (pattern : BazelPattern) (pkg : BazelPackage) : List Rule → Option (List Table.Op)
  | [] => some []
  | r :: rs =>
    match BazelTarget.parseFrom (':' :: r.name.text) pkg with
    | none => targetRows s pattern pkg rs
    | some t =>
      if !pattern.matchTarget t then targetRows s pattern pkg rs
      else
        match s.loc r.name, targetRows s pattern pkg rs with
        | some loc, some rest => some (.row [loc, r.rule, t.toString] :: rest)
        | _, _ => none

/-- bant/cli-commands.cc:237-250: the rows. -/
def allTargetRows (pattern : BazelPattern) : Holding → Option (List Table.Op)
  | [] => some []
  | f :: fs =>
    match (findTargets false f.2.tree []).bind (targetRows f.2.source pattern f.1), allTargetRows pattern fs with
    | some rows, some rest => some (rows ++ rest)
    | _, _ => none

/-! ### `print` -/

/-- `node->identifier()->id()` of a call. -/
def kindOf (r : Rule) : Option View :=
  match r.node with
  | .call (.ident v) _ => some v
  | _ => none

/-- bant/frontend/parsed-project.cc:275-306: the callback for all results. -/
def printRules (o : Print.Options) (s : Source) (pattern : BazelPattern) (pkg : BazelPackage) : List Rule → Option Str
  | [] => some []
  | r :: rs =>
    if !Print.wanted pattern pkg r.plain then printRules o s pattern pkg rs
    else
      match ((kindOf r).bind s.loc).bind fun loc => Print.printRule o pattern pkg loc r.plain,
        printRules o s pattern pkg rs with
      | some a, some b => some (a ++ b)
      | _, _ => none

/-- bant/frontend/parsed-project.cc:268-307: the loop over the files. -/
def printProject (o : Print.Options) (pattern : BazelPattern) : Holding → Option Str
  | [] => some []
  | f :: fs =>
    if (o.onlyErrors && !f.2.hasErrors) || !pattern.matchPackage f.1 then printProject o pattern fs
    else
      match (findTargets true f.2.tree []).bind (printRules o f.2.source pattern f.1), printProject o pattern fs with
      | some a, some b => some (a ++ b)
      | _, _ => none

/-- bant/frontend/parsed-project.cc:252-308, `PrintProject`. -/
def printed (m : Machine) (flags : Flags) (pattern : BazelPattern) (files : Holding) : Option Str :=
  if flags.grep = [] then printProject ⟨flags.onlyErrors, none, m.color⟩ pattern files
  else
    match m.regex flags.grep with
    | none => some []
    | some find => printProject ⟨flags.onlyErrors, some find, m.color⟩ pattern files

/-! ### `dwyu` -/

/-- bant/tool/dwyu.cc:486: the lines of the dependencies of a rule. (Only those of dependencies that might be
removed are asked for; see `Verif.Lemmas.LocatedCommands` for that all of them are known.) -/
def depLines (s : Source) (r : Rule) : Option (List Str) := (stringList r.deps).bind (each s.line)

/-- bant/tool/dwyu.cc:575-594, `CreateEditsForPattern`: for a rule. -/
def editsForRule (m : Machine) (flags : Flags) (ws : Workspace.Map) (gen : Dwyu.Generator) (pattern : BazelPattern)
    (pkg : BazelPackage) (s : Source) (r : Rule) : Option (List Edit) :=
  match pkg.qualifiedTarget r.name.text with
  | none => some []
  | some target =>
    if !pattern.matchTarget target then some []
    else
      (depLines s r).bind fun lines =>
        Dwyu.createEditsForTarget ⟨m.fs.content, ws, fun _ _ n => lines.getD n [], flags.ignoreKeep⟩ gen target
          r.plain pkg

/-- bant/tool/dwyu.cc:575-594, `CreateEditsForPattern`. -/
def editsForFile (m : Machine) (flags : Flags) (ws : Workspace.Map) (gen : Dwyu.Generator) (pattern : BazelPattern)
    (f : BazelPackage × Held) : Option (List Edit) :=
  if !pattern.matchPackage f.1 then some []
  else
    (findTargets false f.2.tree [c!"cc_library", c!"cc_binary", c!"cc_test"]).bind fun rs =>
      mapAll (editsForRule m flags ws gen pattern f.1 f.2.source) rs

/-- bant/tool/dwyu.cc:596-614, `CreateDependencyEdits`. -/
def dependencyEdits (m : Machine) (flags : Flags) (ws : Workspace.Map) (pattern : BazelPattern) (files : Holding) :
    Option (List Edit) :=
  (Dwyu.Generator.create (trees (plainOf files))).bind fun gen =>
    mapAll (editsForFile m flags ws gen pattern) files

/-! ### Commands -/

/-- bant/cli-commands.cc:185-283: the command. -/
def perform (m : Machine) (flags : Flags) (cmd : Command) (pattern : BazelPattern) (p : Ready) :
    Option Commands.Result :=
  match cmd with
  | .print => (printed m flags pattern p.files).map fun s => (0, s)
  | .parse =>
    if flags.printAst || flags.onlyErrors then (printed m flags pattern p.files).map fun s => (0, s)
    else some (0, [])
  | .dwyu => edits (dependencyEdits m flags p.workspace pattern p.files)
  | .listTargets =>
    table flags [c!"file-location", c!"rule", c!"target"] (allTargetRows (printPattern flags cmd pattern) p.files)
  | _ => Commands.perform m flags cmd pattern p.plain

/-- bant/cli-commands.cc:102-285, `RunCommand`. -/
def runCommand (m : Machine) (flags : Flags) (cmd : Command) (pattern : BazelPattern) : Option Ran :=
  match prepare m flags cmd pattern with
  | none => none
  | some none => some ⟨1, [], noWorkspace⟩
  | some (some p) => (perform m flags cmd pattern p).map fun r => ⟨r.1, r.2, p.message⟩

end Located
end Bant
