import Verif.Model.Stderr

/-!
The statistics that are written with `-v`: bant/util/stat.cc, bant/util/stat.h, bant/session.h, bant/bant.cc:239-245,
and what is counted in the rest of the program.

Outside are: how long something took, the text of the throughput (a floating point number), and how many files `glob()`
looked at in a package. Numbers do not overflow here.
-/
namespace Bant
namespace Stats
open Commands Cli Query Headers

/-! ### The numbers of a session -/

/-- bant/util/stat.h:45-67, `Stat`, without the duration. -/
structure Stat where
  subject : Str
  count : Nat := 0
  bytes : Option Nat := none
deriving DecidableEq, Repr

/-- Something that is counted: `GetStatsFor`, then `count` is increased, and `AddBytesProcessed` is called. -/
structure Event where
  key : Str
  subject : Str
  count : Nat := 0
  bytes : Option Nat := none
deriving DecidableEq, Repr

/-- bant/session.h:114-115: `stats_` in the order of `stat_init_key_order_`. -/
abbrev Record := List (Str × Stat)

/-- bant/session.h:88-95, `GetStatsFor`: afterwards there is one. -/
def getStatsFor (r : Record) (key subject : Str) : Record :=
  if (lookup r key).isSome then r else r ++ [(key, ⟨subject, 0, none⟩)]

/-- bant/util/stat.h:54-60, `AddBytesProcessed`. -/
def addBytes (s : Stat) (n : Nat) : Stat :=
  match s.bytes with
  | some k => { s with bytes := some (k + n) }
  | none => { s with bytes := some n }

/-- An event. -/
def note (r : Record) (e : Event) : Record :=
  (getStatsFor r e.key e.subject).map fun x =>
    if x.1 = e.key then
      (x.1, match e.bytes with
        | none => { x.2 with count := x.2.count + e.count }
        | some n => addBytes { x.2 with count := x.2.count + e.count } n)
    else x

/-- All of a session. -/
def record (l : List Event) : Record := l.foldl note []

/-- What is not known here: the durations in microseconds, and the text for bytes in a time. -/
structure Clock where
  micros : Str → Int
  speed : Nat → Int → Str

/-- Three digits. -/
def threeDigits (n : Nat) : Str :=
  [Nat.digitChar (n / 100 % 10), Nat.digitChar (n / 10 % 10), Nat.digitChar (n % 10)]

/-- `%.3f` of a thousandth of an integer (that is not so large that a `double` is too coarse for it). -/
def millis (us : Int) : Str :=
  (if us < 0 then c!"-" else []) ++ showInt (us.natAbs / 1000 : Nat) ++ c!"." ++ threeDigits (us.natAbs % 1000)

/-- bant/util/stat.cc:26-37, `Stat::ToString`. The number of KiB is an integer, though written with `%.2f`. -/
def Stat.toText (clock : Clock) (key : Str) (s : Stat) : Str :=
  let us := clock.micros key
  let plain := showInt s.count ++ c!" " ++ s.subject ++ c!" in " ++ millis us ++ c!"ms"
  match s.bytes with
  | none => plain
  | some n =>
    if us > 0 then
      showInt s.count ++ c!" " ++ s.subject ++ c!" with " ++ showInt (n / 1024 : Nat) ++ c!".00 KiB in " ++ millis us ++
        c!"ms (" ++ clock.speed n us ++ c!" MB/sec)"
    else plain

/-- bant/bant.cc:239-245: what is written. -/
def text (clock : Clock) (r : Record) : Str :=
  r.flatMap fun x => x.1 ++ c!" " ++ x.2.toText clock x.1 ++ c!"\n"

/-! ### Finding files -/

/-- bant/frontend/parsed-project.cc:84 -/
def walkKey : Str := c!"BUILD file glob walk"

/-- bant/frontend/parsed-project.cc:151 -/
def readKey : Str := c!"read(BUILD)      "

/-- bant/frontend/parsed-project.cc:152 -/
def parseKey : Str := c!"Parse & build AST"

/-- bant/util/file-utils.cc:184-212: how often a predicate is called for one entry of a directory. -/
def looked (t : FileUtils.Tree) (dir : Str) (st : FileUtils.Walk) (e : FileUtils.Dirent) : Nat :=
  if e.name = c!"." ∨ e.name = c!".." then 0
  else
    match FileUtils.directoryInode t (Workspace.join dir e.name) e with
    | some inode => if FileUtils.looksLikeValidInode inode && inode ∈ st.seen then 0 else 1
    | none => 1

/-- bant/util/file-utils.cc:183-213: for the entries of a directory. -/
def lookedIn (t : FileUtils.Tree) (wantDir wantFile : Str → Bool) (dir : Str) :
    FileUtils.Walk → List FileUtils.Dirent → Nat
  | _, [] => 0
  | st, e :: es => looked t dir st e + lookedIn t wantDir wantFile dir (FileUtils.entry t wantDir wantFile dir st e) es

/-- bant/util/file-utils.cc:174-214: in the whole walk. `none`: it is not finished after `n` iterations. -/
def lookedAll (t : FileUtils.Tree) (wantDir wantFile : Str → Bool) : (n : Nat) → FileUtils.Walk → Option Nat
  | 0, st => if st.work = [] then some 0 else none
  | n + 1, st =>
    match st.work with
    | [] => some 0
    | dir :: rest =>
      (lookedAll t wantDir wantFile n (FileUtils.directory t wantDir wantFile dir { st with work := rest })).map
        (lookedIn t wantDir wantFile dir { st with work := rest } ((t.list dir).getD []) + ·)

/-- bant/frontend/parsed-project.cc:80-110, `CollectBuildFiles`. -/
def walk (m : Machine) (ws : Workspace.Map) (pattern : BazelPattern) : Option (List Event) :=
  match Collect.searchDir ws pattern with
  | none => some [⟨walkKey, c!"files/directories", 0, none⟩]
  | some dir =>
    (lookedAll m.tree (Collect.wantDir m.symlink pattern.isRecursive) Collect.isBuildFile m.steps
        { work := [dir] }).map fun n =>
      [⟨walkKey, c!"files/directories", n, none⟩]

/-- bant/frontend/parsed-project.cc:148-177, `AddBuildFile`; `size`: that of the content of the file that is returned,
`none`: it can not be read. -/
def addFile (size : Option Nat) : List Event :=
  [⟨readKey, c!"BUILD files", 1, none⟩, ⟨parseKey, c!"BUILD files", 0, none⟩] ++
    match size with
    | none => []
    | some n => [⟨parseKey, c!"BUILD files", 1, some n⟩, ⟨readKey, c!"BUILD files", 0, some n⟩]

/-- bant/frontend/parsed-project.cc:120-122 with 127-145: one iteration. If there already is a file for the package, then
it is the one that is returned (bant/frontend/parsed-project.cc:186-194). -/
def addFound (m : Machine) (ws : Workspace.Map) (project : Str) (p : Project.State) (file : Str) : Option (List Event) :=
  match Collect.packageOf ws file project with
  | none => none
  | some none => some []
  | some (some pkg) =>
    some (addFile ((m.fs.content file).map fun content =>
      match p.find pkg with
      | some existing => existing.source.content.length
      | none => content.length))

/-- bant/frontend/parsed-project.cc:120-122: the loop. -/
def addAll (m : Machine) (ws : Workspace.Map) (project : Str) (p : Project.State) : List Str → Option (List Event)
  | [] => some []
  | file :: files =>
    match addFound m ws project p file, Collect.addFound ws project m.fs.content m.base p file with
    | some l, some q => (addAll m ws project q files).map (l ++ ·)
    | _, _ => none

/-- bant/cli-commands.cc:125-130 -/
def fill (m : Machine) (ws : Workspace.Map) (cmd : Command) (pattern : BazelPattern) : Option (List Event) :=
  if needsProject cmd pattern then
    let wanted := depPattern cmd pattern
    match walk m ws wanted,
      (Collect.collectBuildFiles m.tree m.symlink ws wanted m.steps).bind
        (addAll m ws wanted.pattern.package.project {}) with
    | some a, some b => some (a ++ b)
    | _, _ => none
  else some []

/-! ### Evaluation, and the graph -/

/-- bant/frontend/elaboration.cc:298 -/
def elabKey : Str := c!"Elaborated"

/-- bant/frontend/elaboration.cc:243 -/
def globKey : Str := c!"  - of which glob() walking"

/-- bant/explore/dependency-graph.cc:119 -/
def roundKey : Str := c!"Dependency follow iterations"

/-- bant/explore/dependency-graph.cc:43 -/
def existKey : Str := c!"  - of which exist-check"

/-- bant/frontend/elaboration.cc:296-305, `Elaborate` for a file; `globs`: if there is a `glob()` in the package, the
number of files that are looked at (bant/frontend/elaboration.cc:238-272). -/
def elaborate (globs : BazelPackage → Option Nat) (pkg : BazelPackage) : List Event :=
  ⟨elabKey, c!"packages", 1, none⟩ ::
    match globs pkg with
    | none => []
    | some n => [⟨globKey, c!"files", n, none⟩]

/-- bant/explore/dependency-graph.cc:40-68, `PathForPackage`: the number of files that are tried. -/
def tried (w : DepGraph.World) (pkg : BazelPackage) : Nat :=
  let below (root : Str) : Nat :=
    let start :=
      if pkg.path = [] then root
      else (if root = [] then [] else root ++ ['/']) ++ pkg.path
    if w.fs.canRead (Workspace.join start c!"BUILD") then 1 else 2
  if pkg.project = [] then below []
  else
    match Workspace.findPath w.workspace pkg.project with
    | none => 0
    | some root => below root

/-- bant/explore/dependency-graph.cc:70-90, `FindAndParseMissingPackages`. -/
def missing (w : DepGraph.World) (globs : BazelPackage → Option Nat) (files : Files) :
    List BazelPackage → Option (List Event)
  | [] => some []
  | pkg :: rest =>
    match lookup files pkg with
    | some _ => missing w globs files rest
    | none =>
      let exist : Event := ⟨existKey, c!"BUILD files", tried w pkg, none⟩
      match DepGraph.pathForPackage w pkg with
      | none => (missing w globs files rest).map (exist :: ·)
      | some path =>
        match w.fs.content path, DepGraph.parseMissing w files [pkg] with
        | some content, some files =>
          (missing w globs files rest).map fun l =>
            exist :: (addFile (some content.length) ++ elaborate globs pkg ++ l)
        | _, _ => none

/-- bant/explore/dependency-graph.cc:134-193: the loop. -/
def rounds (w : DepGraph.World) (globs : BazelPackage → Option Nat) (files : Files) (graph : DepGraph.Graph)
    (todo : List BazelTarget) : Nat → Option (List Event)
  | 0 =>
    (missing w globs files (todo.foldl (fun s t => add t.package s) [])).map (⟨roundKey, c!"rounds", 1, none⟩ :: ·)
  | n + 1 =>
    match missing w globs files (todo.foldl (fun s t => add t.package s) []), DepGraph.round w files graph todo with
    | some l, some (files, st) =>
      (if st.next = [] then some [] else rounds w globs files st.graph st.next n).map fun more =>
        ⟨roundKey, c!"rounds", 1, none⟩ :: (l ++ more)
    | _, _ => none

/-- bant/cli-commands.cc:144-176 with dependency-graph.cc:103-211. -/
def graph (m : Machine) (globs : BazelPackage → Option Nat) (ws : Workspace.Map) (flags : Flags) (cmd : Command)
    (pattern : BazelPattern) (files : Files) : Option (List Event) :=
  if usesGraph cmd && depthOf flags cmd ≥ 0 then
    ((DepGraph.initial (depPattern cmd pattern) files).bind fun todo =>
      rounds ⟨m.fs, ws, m.glob⟩ globs files {} todo (depthOf flags cmd).toNat).map
        (⟨roundKey, c!"rounds", 0, none⟩ :: ·)
  else some []

/-! ### Commands -/

/-- bant/tool/canon-targets.cc:37 -/
def canonKey : Str := c!"Canonicalization checked"

/-- bant/tool/dwyu.cc:565 -/
def prepareKey : Str := c!"DWYU preparation"

/-- bant/tool/dwyu.cc:244 -/
def sourceKey : Str := c!"read(C++ source)"

/-- bant/tool/dwyu.cc:245 -/
def grepKey : Str := c!"Grep'ed for #inc"

/-- bant/tool/canon-targets.cc:32-73, `CreateCanonicalizeEdits`. -/
def canonicalize (pattern : BazelPattern) (files : Files) : Option (List Event) :=
  (mapAll (fun f =>
      if !pattern.matchPackage f.1 then some []
      else forTargets f.2 [] fun r =>
        match f.1.qualifiedTarget r.name with
        | none => some []
        | some self =>
          if !pattern.matchTarget self then some []
          else (stringList r.deps).map (·.map fun _ => (⟨canonKey, c!"dependencies", 1, none⟩ : Event)))
    files).map (⟨canonKey, c!"dependencies", 0, none⟩ :: ·)

/-- bant/tool/dwyu.cc:239-418, `DependenciesNeededBySources`; `contents` of the sources that can be read. -/
def sources (contents : List Str) : List Event :=
  [⟨sourceKey, c!"sources", 0, none⟩, ⟨grepKey, c!"sources", 0, none⟩] ++
    contents.flatMap (fun _ => [⟨sourceKey, c!"sources", 1, none⟩, ⟨grepKey, c!"sources", 1, none⟩]) ++
    [⟨sourceKey, c!"sources", 0, some (contents.map List.length).sum⟩,
      ⟨grepKey, c!"sources", 0, some (contents.map List.length).sum⟩]

/-- bant/tool/dwyu.cc:560-594: the constructor, and `CreateEditsForPattern`. -/
def dwyu (env : Dwyu.Env) (pattern : BazelPattern) (files : Files) : Option (List Event) :=
  (Dwyu.Generator.create files).bind fun gen =>
    (mapAll (fun f =>
      if !pattern.matchPackage f.1 then some []
      else forTargets f.2 [c!"cc_library", c!"cc_binary", c!"cc_test"] fun r =>
        match f.1.qualifiedTarget r.name with
        | none => some []
        | some target =>
          if !pattern.matchTarget target then some []
          else
            match stringList r.srcs, stringList r.hdrs with
            | some srcs, some hdrs =>
              some (sources ((srcs ++ hdrs).filterMap fun src =>
                Dwyu.tryOpenFile env.read (f.1.fullyQualifiedFile env.workspace src)))
            | _, _ => none)
      files).map (⟨prepareKey, c!"indexed targets", gen.known.length, none⟩ :: ·)

/-- bant/cli-commands.cc:185-283 -/
def perform (m : Machine) (flags : Flags) (cmd : Command) (pattern : BazelPattern) (ws : Workspace.Map)
    (files : Files) : Option (List Event) :=
  match cmd with
  | .dwyu => dwyu ⟨m.fs.content, ws, m.line, flags.ignoreKeep⟩ pattern files
  | .canonicalizeDeps => canonicalize pattern files
  | _ => some []

/-- bant/cli-commands.cc:102-285, `RunCommand`: all that is counted. -/
def runCommand (m : Machine) (globs : BazelPackage → Option Nat) (flags : Flags) (cmd : Command)
    (pattern : BazelPattern) : Option (List Event) :=
  match prepare m flags cmd pattern with
  | none => none
  | some none => some []
  | some (some p) =>
    match fill m p.workspace cmd pattern, opened m p.workspace flags cmd pattern,
      (opened m p.workspace flags cmd pattern).bind fun o =>
        graph m globs p.workspace flags cmd pattern (trees o.1),
      perform m flags cmd pattern p.workspace (trees p.files) with
    | some a, some o, some c, some d =>
      some (a ++ (if elaborates flags cmd then o.1.flatMap fun f => elaborate globs f.1 else []) ++ c ++ d)
    | _, _, _, _ => none

/-- The statistics, for `Stderr.bant`. (They are asked for only if the command returns.) -/
def stats (machine : List Str → Machine) (globs : List Str → BazelPackage → Option Nat) (clock : Clock)
    (cd : List Str) (flags : Flags) : Choice → Str
  | .stop _ _ => []
  | .run cmd pattern => ((runCommand (machine cd) (globs cd) flags cmd pattern).map fun l => text clock (record l)).getD []

/-- bant/bant.cc:131-247, `main`, with the statistics. -/
def bant (env : Env) (machine : List Str → Machine) (regexError : Str → Str)
    (globs : List Str → BazelPackage → Option Nat) (clock : Clock) (args : List Str) : Option Outcome :=
  Stderr.bant env ⟨machine, regexError, stats machine globs clock⟩ args

end Stats
end Bant
