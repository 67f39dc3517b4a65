import Verif.Model.DwyuMessages
import Verif.Model.LocatedCommands
import Verif.Model.Messages

/-!
Everything that is written to standard error while a command runs: bant/cli-commands.cc and what it calls, and
bant/bant.cc.

The commands themselves are those of `Verif.Model.LocatedCommands`. There are two ways to standard error: the info
stream of the session, that is switched off with `-q` (the error stream is the same, bant/session.h:40-41), and
`std::cerr`. What the library says about a regular expression that is not valid, and the statistics for `-v` (see `Verif.Model.Stats`), come from
outside. Not modelled: the pattern of a target that is not a valid regular expression (types-bazel.cc:254), as that does
not happen, and what the arena says with `-v` (arena.h:56).

`none`: undefined behaviour, a failed `CHECK` (also that a location is not known), or no end.
-/
namespace Bant
namespace Stderr
open Commands Headers Cli
open Located (each Source Holding Held Rule View)

/-- A text, with the stream it is written to. -/
inductive Said
  | session (text : Str)
  | direct (text : Str)
deriving DecidableEq, Repr

/-- What is seen of it. -/
def Said.shown (quiet : Bool) : Said → Str
  | session text => if quiet then [] else text
  | direct text => text

/-! ### The workspace -/

/-- bant/workspace.cc:155-159 -/
def notExtracted (loc name : Str) : Str := loc ++ c!" Can't find extracted project '" ++ name ++ c!"'\n"

/-- bant/workspace.cc:109-169: for one file, what the parser says, and what is said about projects. -/
def workspaceFile (fs : Workspace.FileSystem) (ws : Str) : Option (List Str × List Str) :=
  match fs.content ws with
  | none => some ([], [])
  | some content =>
    match Messages.ofFile ws content, Located.parseFile content with
    | some parser, some (tree, st) =>
      let source : Source := ⟨ws, content, (Project.scanTimes st.scans (Scanner.init content)).lines⟩
      (Located.findTargets false tree [c!"http_archive", c!"bazel_dep"]).bind fun rs =>
        (each (fun r => (source.loc r.name).map fun loc => notExtracted loc r.name.text)
          (rs.filter fun r => (Workspace.projectDir fs r.plain).isNone)).map (parser, ·)
    | _, _ => none

/-- bant/workspace.cc:175-176 -/
def needBuild : Str := c!"Note: need to run a bazel build at least once to extract external projects\n"

/-- bant/workspace.cc:97-180, `LoadWorkspace`: what is said. The first two of the files are those of old. -/
def workspace (fs : Workspace.FileSystem) : Option (List Said) :=
  (each (workspaceFile fs) Workspace.wsFiles).map fun l =>
    let old := (l.take 2).flatMap (·.2)
    let new := (l.drop 2).flatMap (·.2)
    (l.flatMap (·.1)).map .session ++
      if old.flatten ≠ [] ∧ new.flatten ≠ [] then (old ++ new ++ [needBuild]).map .session else []

/-! ### Files -/

/-- bant/frontend/parsed-project.cc:66 -/
def unknownProject (project : Str) : Str := c!"Unknown project " ++ project ++ c!".\n"

/-- bant/frontend/parsed-project.cc:137 -/
def noPackage (file : Str) : Str := file ++ c!": Can't determine package.\n"

/-- bant/frontend/parsed-project.cc:160 -/
def couldNotRead (file : Str) : Str := c!"Could not read " ++ file ++ c!"\n"

/-- bant/frontend/parsed-project.cc:190-192 -/
def alreadySeen (file : Str) (pkg : BazelPackage) (before : Str) : Str :=
  file ++ c!": Package " ++ pkg.toString ++ c!" already seen before in " ++ before ++ c!"\n"

/-- bant/frontend/parsed-project.cc:148-210: what is said when a file is added. -/
def addFile (p : Project.State) (pkg : BazelPackage) (file : Str) : Option Str → Option (List Said)
  | none => some [.direct (couldNotRead file)]
  | some content =>
    match p.find pkg with
    | some existing => some [.session (alreadySeen file pkg existing.source.name)]
    | none => (Messages.ofFile file content).map (·.map .session)

/-- bant/frontend/parsed-project.cc:120-122 with 127-145: one iteration. -/
def addFound (m : Machine) (ws : Workspace.Map) (project : Str) (p : Project.State) (file : Str) :
    Option (List Said) :=
  match Collect.packageOf ws file project with
  | none => none
  | some none => some [.direct (noPackage file)]
  | some (some pkg) => addFile p pkg file (m.fs.content file)

/-- bant/frontend/parsed-project.cc:120-122: the loop. -/
def addAll (m : Machine) (ws : Workspace.Map) (project : Str) (p : Project.State) :
    List Str → Option (List Said)
  | [] => some []
  | file :: files =>
    match addFound m ws project p file, Collect.addFound ws project m.fs.content m.base p file with
    | some said, some q => (addAll m ws project q files).map (said ++ ·)
    | _, _ => none

/-- bant/cli-commands.cc:125-130 with parsed-project.cc:60-125 -/
def fill (m : Machine) (ws : Workspace.Map) (cmd : Command) (pattern : BazelPattern) : Option (List Said) :=
  if needsProject cmd pattern then
    let wanted := depPattern cmd pattern
    let project := wanted.pattern.package.project
    (Collect.collectBuildFiles m.tree m.symlink ws wanted m.steps).bind fun files =>
      (addAll m ws project {} files).map fun said =>
        (if (Collect.searchDir ws wanted).isNone then [.direct (unknownProject project)] else []) ++ said ++
          if files.length = 0 then [.session noBuildFile] else []
  else some []

/-! ### The graph -/

/-- bant/explore/dependency-graph.cc:70-90, `FindAndParseMissingPackages`: the packages that are not found, and what is
said while the others are loaded. -/
def missing (w : DepGraph.World) (files : Files) : List BazelPackage → Option (List BazelPackage × List Str)
  | [] => some ([], [])
  | pkg :: rest =>
    match lookup files pkg with
    | some _ => missing w files rest
    | none =>
      match DepGraph.pathForPackage w pkg with
      | none => (missing w files rest).map fun r => (pkg :: r.1, r.2)
      | some path =>
        match (w.fs.content path).bind (Messages.ofFile path), DepGraph.parseMissing w files [pkg] with
        | some said, some files => (missing w files rest).map fun r => (r.1, said ++ r.2)
        | _, _ => none

/-- What has been found out while building the graph: the sets `error_packages` and `error_targets`, and what has been
said. -/
structure Account where
  packages : List BazelPackage := []
  targets : List BazelTarget := []
  said : List Str := []

/-- bant/explore/dependency-graph.cc:135-192: one iteration. -/
def round (w : DepGraph.World) (files : Files) (graph : DepGraph.Graph) (todo : List BazelTarget) (a : Account) :
    Option (Files × DepGraph.Round × Account) :=
  match missing w files (todo.foldl (fun s t => add t.package s) []), DepGraph.round w files graph todo with
  | some (packages, said), some (files, st) =>
    some (files, st,
      ⟨packages.foldl (fun s p => add p s) a.packages, st.todo.foldl (fun s t => add t s) a.targets, a.said ++ said⟩)
  | _, _ => none

/-- bant/explore/dependency-graph.cc:134-193: the loop. -/
def rounds (w : DepGraph.World) (files : Files) (graph : DepGraph.Graph) (todo : List BazelTarget) (a : Account) :
    Nat → Option Account
  | 0 => (round w files graph todo a).map (·.2.2)
  | n + 1 =>
    match round w files graph todo a with
    | none => none
    | some (files, st, a) => if st.next = [] then some a else rounds w files st.graph st.next a n

/-- bant/explore/dependency-graph.cc:92-99, `PrintList` -/
def list (title : Str) (elements : List Str) : Str := title ++ (elements.flatMap fun e => c!"\t" ++ e ++ c!"\n") ++ c!"\n"

/-- bant/explore/dependency-graph.cc:195-208 -/
def notFound (a : Account) : List Str :=
  (if a.packages = [] then []
    else [list c!"Dependcy graph: Did not find these packages\n" (a.packages.map BazelPackage.toString)]) ++
  (if a.targets = [] then []
    else [list c!"Dependency graph: Did not find these targets\n" (a.targets.map BazelTarget.toString)])

/-- bant/cli-commands.cc:164-170 -/
def grown (before after : Nat) (g : DepGraph.Graph) : Str :=
  c!"Dependency graph expanded build file# from initial " ++ showInt before ++ c!" to " ++ showInt after ++ c!"; " ++
    showInt g.dependsOn.length ++ c!" targets and " ++ showInt g.hasDependents.length ++ c!" that depend on these.\n"

/-- bant/cli-commands.cc:144-176; `files` are those that are there before. -/
def graph (m : Machine) (ws : Workspace.Map) (flags : Flags) (cmd : Command) (pattern : BazelPattern)
    (files : Files) : Option (List Said) :=
  if usesGraph cmd && depthOf flags cmd ≥ 0 then
    let w : DepGraph.World := ⟨m.fs, ws, m.glob⟩
    match (DepGraph.initial (depPattern cmd pattern) files).bind fun todo =>
        rounds w files {} todo {} (depthOf flags cmd).toNat,
      DepGraph.build w (depPattern cmd pattern) (depthOf flags cmd) files with
    | some a, some (now, g) =>
      some ((a.said ++ if flags.verbose > 0 then notFound a ++ [grown files.length now.length g] else []).map .session)
    | _, _ => none
  else some []

/-! ### Commands -/

/-- bant/tool/canon-targets.cc:60-61 -/
def invalidName (loc dep : Str) : Str := loc ++ c!" Invalid target name '" ++ dep ++ c!"'\n"

/-- bant/tool/canon-targets.cc:45-70: for a rule. -/
def canonRule (pattern : BazelPattern) (pkg : BazelPackage) (s : Source) (r : Rule) : Option (List Str) :=
  match pkg.qualifiedTarget r.name.text with
  | none => some []
  | some self =>
    if !pattern.matchTarget self then some []
    else
      (Located.stringList r.deps).bind fun deps =>
        each (fun d => (s.loc d).map fun loc => invalidName loc d.text)
          (deps.filter fun d => (BazelTarget.parseFrom d.text pkg).isNone)

/-- bant/tool/canon-targets.cc:32-73, `CreateCanonicalizeEdits`. -/
def canonicalize (pattern : BazelPattern) (files : Holding) : Option (List Str) :=
  Query.mapAll (fun f =>
      if !pattern.matchPackage f.1 then some []
      else (Located.findTargets false f.2.tree []).bind fun rs => Query.mapAll (canonRule pattern f.1 f.2.source) rs)
    files

/-- bant/explore/header-providers.cc:317-352, `ExtractGeneratedFromGenrule`: all outputs of a rule, with the location. -/
def ruleOuts (pkg : BazelPackage) (s : Source) (r : Rule) : Option (List (BazelPackage × Str × Str × BazelTarget)) :=
  match Located.stringList r.outs, pkg.qualifiedTarget r.name.text with
  | none, _ => none
  | some _, none => some []
  | some outs, some target =>
    each (fun o => (s.loc o).map fun loc => (pkg, loc, pkg.qualifiedFile o.text, target)) outs

/-- bant/explore/header-providers.cc:317-352, `ExtractGeneratedFromGenrule`: what is said. -/
def genrules (files : Holding) : Option (List Dwyu.Message) :=
  (Query.mapAll (fun f =>
      (Located.findTargets false f.2.tree [c!"genrule"]).bind fun rs => Query.mapAll (ruleOuts f.1 f.2.source) rs)
    files).map (Dwyu.sayGenrules [])

/-- bant/tool/dwyu.cc:187: the location of the name of a rule in `known_libs_`. -/
def knownLoc (files : Holding) (t : BazelTarget) : Str :=
  ((lookup files t.package).bind fun f =>
    (Located.findTargets false f.tree
        [c!"cc_library", c!"alias", c!"cc_proto_library", c!"grpc_cc_library", c!"cc_test"]).bind fun rs =>
      (rs.find? fun r => decide (t.package.qualifiedTarget r.name.text = some t)).bind fun r =>
        f.source.loc r.name).getD []

/-- The locations for a rule. (Only some of them are asked for; see `Verif.Lemmas.Stderr` for that all of them are
known.) -/
def rulePlaces (files : Holding) (s : Source) (r : Rule) : Option Dwyu.Places :=
  match s.loc r.name, (Located.stringList r.srcs).bind (each s.loc), (Located.stringList r.hdrs).bind (each s.loc),
    (Located.stringList r.deps).bind (each s.loc) with
  | some name, some srcs, some hdrs, some deps =>
    some {
      name := fun _ _ => name
      source := fun _ _ n => (srcs ++ hdrs).getD n []
      dep := fun _ _ n => deps.getD n []
      out := fun _ _ _ => []
      known := knownLoc files }
  | _, _, _, _ => none

/-- bant/tool/dwyu.cc:420-527, `CreateEditsForTarget`: what is said for a rule that is looked at. -/
def dwyuRule (m : Machine) (flags : Flags) (ws : Workspace.Map) (gen : Dwyu.Generator)
    (made : List (Str × BazelTarget)) (pattern : BazelPattern) (files : Holding) (pkg : BazelPackage) (s : Source)
    (r : Rule) : Option (List (List Dwyu.Message)) :=
  match pkg.qualifiedTarget r.name.text with
  | none => some []
  | some target =>
    if !pattern.matchTarget target then some []
    else
      match rulePlaces files s r, Located.depLines s r with
      | some places, some lines =>
        (Dwyu.sayForTarget ⟨flags.verbose, m.color, places⟩
          ⟨m.fs.content, ws, fun _ _ n => lines.getD n [], flags.ignoreKeep⟩ gen made target r.plain pkg).map ([·])
      | _, _ => none

/-- bant/tool/dwyu.cc:596-614, `CreateDependencyEdits`: what is said. -/
def dwyu (m : Machine) (flags : Flags) (ws : Workspace.Map) (pattern : BazelPattern) (files : Holding) :
    Option (List Dwyu.Message) :=
  let plain := trees (Located.plainOf files)
  match Dwyu.Generator.create plain, extractGeneratedFromGenrule plain, genrules files with
  | some gen, some made, some first =>
    match Query.mapAll (fun f =>
          if !pattern.matchPackage f.1 then some []
          else
            (Located.findTargets false f.2.tree [c!"cc_library", c!"cc_binary", c!"cc_test"]).bind fun rs =>
              Query.mapAll (dwyuRule m flags ws gen made pattern files f.1 f.2.source) rs)
        files,
      Located.dependencyEdits m flags ws pattern files with
    | some said, some edits => some (first ++ said.flatten ++ [.checked said.length edits.length])
    | _, _ => none
  | _, _, _ => none

/-- bant/cli-commands.cc:185-283: what the command says. `regexError` is what the library says about a regular expression
(bant/frontend/parsed-project.cc:257-265). -/
def perform (m : Machine) (regexError : Str → Str) (flags : Flags) (cmd : Command) (pattern : BazelPattern)
    (ws : Workspace.Map) (files : Holding) : Option (List Said) :=
  let grep : List Said :=
    if flags.grep ≠ [] ∧ (m.regex flags.grep).isNone then
      [.direct (c!"Grep pattern: " ++ regexError flags.grep ++ c!"\n")]
    else []
  match cmd with
  | .print => some grep
  | .parse => some (if flags.printAst || flags.onlyErrors then grep else [])
  | .genruleOutputs => (genrules files).map (·.map fun x => .session x.text)
  | .dwyu => (dwyu m flags ws pattern files).map (·.map fun x => .session x.text)
  | .canonicalizeDeps => (canonicalize pattern files).map (·.map .session)
  | _ => some []

/-- What is seen of `RunCommand`. -/
structure Run where
  status : Nat
  out : Str
  said : List Said
  deriving DecidableEq

/-- bant/cli-commands.cc:102-285, `RunCommand`. -/
def runCommand (m : Machine) (regexError : Str → Str) (flags : Flags) (cmd : Command) (pattern : BazelPattern) :
    Option Run :=
  match workspace m.fs, Located.prepare m flags cmd pattern with
  | some first, some none => some ⟨1, [], first ++ [.session noWorkspace]⟩
  | some first, some (some p) =>
    match fill m p.workspace cmd pattern,
      (Located.opened m p.workspace flags cmd pattern).bind fun o =>
        graph m p.workspace flags cmd pattern (trees (Located.plainOf o.1)),
      perform m regexError flags cmd pattern p.workspace p.files, Located.perform m flags cmd pattern p with
    | some a, some b, some c, some r => some ⟨r.1, r.2, first ++ a ++ b ++ c⟩
    | _, _, _, _ => none
  | _, _ => none

/-! ### `main` -/

/-- bant/bant.cc:197-199 -/
def changed : Str := c!"Note, the name of -b option changed to -e\n"

/-- bant/bant.cc:152-217: what is written to standard error while the options are looked at, but for the end. -/
def notes (env : Env) (s : Setup) : List Opt → Str
  | [] => []
  | o :: os =>
    (if o = .opt 'b' none then changed else []) ++
      match option env s o with
      | .go s => notes env s os
      | _ => []

/-- What is outside, but for what `Cli.Env` has. What there is depends on the directory. `stats`: the statistics
(bant/bant.cc:239-245). -/
structure World where
  machine : List Str → Machine
  regexError : Str → Str
  stats : List Str → Flags → Choice → Str

/-- bant/bant.cc:131-247, `main`. -/
def bant (env : Env) (w : World) (args : List Str) : Option Outcome :=
  let (opts, rest) := getopt optstring args
  let before := notes env {} opts
  match options env {} opts with
  | .undefined => none
  | .exit s status err => some { status, err := before ++ err, truncated := s.truncated }
  | .go s =>
    let flags := finishGrep s
    let said (l : List Said) : Str := l.flatMap (·.shown s.quiet)
    let finish (status : Nat) : Str :=
      if status = 2 then said [.session c!"\n\n"] ++ env.help
      else if flags.verbose > 0 then w.stats s.cd flags (choose rest) else []
    match choose rest with
    | .stop status message =>
      some { status, err := before ++ said [.session message] ++ finish status, outFile := s.out,
             truncated := s.truncated }
    | .run cmd pattern =>
      (runCommand (w.machine s.cd) w.regexError flags cmd pattern).map fun r =>
        { status := r.status, out := r.out, outFile := s.out, err := before ++ said r.said ++ finish r.status,
          truncated := s.truncated, ran := some (flags, cmd, pattern) }

end Stderr
end Bant
