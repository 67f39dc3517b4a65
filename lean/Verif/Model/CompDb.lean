import Verif.Model.Workspace

/-
Model of bant/tool/compilation-db.cc: the commands `compilation-db` and `compile-flags`.
`none`: undefined behaviour, or an exception that nobody catches.

The regular expressions are modelled by what they match. Simplified: the text of `.bazelrc` is read once
(the code reads the file again in `ExtractOptionsFromBazelrc`).
-/
namespace Bant
namespace CompDb
open Query

/-! ### Options in `.bazelrc` -/

/-- `\s` -/
def isBlank (c : Char) : Bool := c = ' ' || c = '\t' || c = '\n' || c = Char.ofNat 12 || c = '\r'

/-- `[^\s"']` -/
def isOptChar (c : Char) : Bool := !isBlank c && c ≠ '"' && c ≠ '\''

/-- `word?` -/
def skipWord (w s : Str) : Str := if startsWith s w then s.drop w.length else s

/-- bant/tool/compilation-db.cc:72-73, `kCxxExtract` at the begin of the text: what is captured, and the
rest of the text. Nothing of this can match in more than one way. -/
def cxxoptAt (s : Str) : Option (Str × Str) :=
  if ¬ startsWith s c!"--" then none
  else
    let s := skipWord c!"host_" (s.drop 2)
    if ¬ startsWith s c!"cxxopt" then none
    else
      let s := (skipWord c!"=" ((s.drop 6).dropWhile isBlank)).dropWhile isBlank
      let s := match s with
        | [] => []
        | c :: t => if c = '"' ∨ c = '\'' then t else s
      match s with
      | [] => none
      | c :: t =>
        if c = '-' ∧ t.takeWhile isOptChar ≠ [] then some (c :: t.takeWhile isOptChar, t.dropWhile isOptChar)
        else none

/-- bant/tool/compilation-db.cc:82: all that `FindAndConsume` finds; `skip` characters are part of what
has been found. -/
def cxxopts (skip : Nat) : Str → List Str
  | [] => []
  | c :: s =>
    match skip with
    | n + 1 => cxxopts n s
    | 0 =>
      match cxxoptAt (c :: s) with
      | none => cxxopts 0 s
      | some (opt, rest) => opt :: cxxopts (s.length - rest.length) s

/-- A key that is put into a set, and what it adds to the result if it is new. -/
structure Once where
  seen : List Str := []
  result : List Str := []

/-- `if (seen.insert(key).second) { result.emplace_back(...) }` -/
def Once.add (o : Once) (key : Str) (values : List Str) : Once :=
  if key ∈ o.seen then o else ⟨key :: o.seen, o.result ++ values⟩

/-- The rest of the line contains the text. -/
def inLine (w : Str) : Str → Bool
  | [] => false
  | c :: s => startsWith (c :: s) w || (c ≠ '\n' && inLine w s)

/-- bant/tool/compilation-db.cc:89-90, `define.*absl=1` -/
def definesAbsl : Str → Bool
  | [] => false
  | c :: s => (startsWith (c :: s) c!"define" && inLine c!"absl=1" ((c :: s).drop 6)) || definesAbsl s

/-- bant/tool/compilation-db.cc:66-95, `ExtractOptionsFromBazelrc`. -/
def options (bazelrc : Str) : List Str :=
  ((cxxopts 0 bazelrc).foldl (fun o x => o.add x [x]) ({} : Once)).result ++
    if definesAbsl bazelrc then [c!"-DGTEST_HAS_ABSL=1"] else []

/-- bant/tool/compilation-db.cc:97-102, `ExtractOptionsFromBazelrcFile`. -/
def fileOptions (bazelrc : Option Str) : List Str :=
  match bazelrc with
  | none => []
  | some content => options content

/-! ### Directories -/

/-- `protobuf_project.contains(...)` -/
def contains (w : Str) : Str → Bool
  | [] => w = []
  | c :: s => startsWith (c :: s) w || contains w s

/-- bant/tool/compilation-db.cc:121-128: package and target. -/
def protoTargets : List (Str × Str) :=
  [([], c!"protobuf_headers"), (c!"stubs/", c!"lite"), (c!"io/", c!"io")]

/-- bant/tool/compilation-db.cc:112-150, `ProtobufHack`. -/
def protobufHack (target : BazelTarget) (isProto : Bool) (o : Once) : Once :=
  let project := target.package.project
  if ¬ contains c!"protobuf" project then o
  else
    let base := c!"bazel-bin/external/" ++ project.drop 1 ++ c!"/src/google/protobuf/"
    let key := c!"protobuf-extra-include-hack"
    let o :=
      if key ∈ o.seen then o
      else protoTargets.foldl (fun o t =>
        let dir := base ++ t.1 ++ c!"_virtual_includes/" ++ t.2
        o.add dir [dir]) (o.add key [])
    if isProto then
      let dir := base ++ c!"_virtual_includes/" ++ target.name
      o.add dir [dir]
    else o

/-- bant/tool/compilation-db.cc:180-193: the virtual directory of a rule with `include_prefix`. The target may
be missing; `substr(1)` throws for an empty project. -/
def virtualDir (target : Option BazelTarget) : Option Str :=
  match target with
  | none => none
  | some t =>
    if t.package.project = [] then none
    else some (c!"bazel-bin/external/" ++ t.package.project.drop 1 ++ c!"/" ++ t.package.path ++
      c!"/_virtual_includes/" ++ t.name)

/-- bant/tool/compilation-db.cc:202-226: one dependency. -/
def addDep (ws : Workspace.Map) (pkg : BazelPackage) (o : Once) (dep : Str) : Once :=
  match BazelTarget.parseFrom dep pkg with
  | none => o
  | some t =>
    let project := t.package.project
    if project = [] then o
    else
      o.add project
        (match Workspace.findPath ws project with
          | none => []
          | some dir => [dir, c!"bazel-bin/external/" ++ project.drop 1])

/-- bant/tool/compilation-db.cc:166-227: one rule. `*target` is accessed without a check. -/
def addRule (ws : Workspace.Map) (pkg : BazelPackage) (o : Once) (r : Result) : Option Once := do
  let target := pkg.qualifiedTarget r.name
  let includes ← stringList r.includes
  let o := includes.foldl (fun o d => o.add (pkg.fullyQualifiedFile ws d) [pkg.fullyQualifiedFile ws d]) o
  let o ← if r.includePrefix = [] then some o else (virtualDir target).map fun d => o.add d [d]
  let t ← target
  let o := protobufHack t (r.rule = c!"proto_library") o
  let deps ← stringList r.deps
  return deps.foldl (addDep ws pkg) o

/-- bant/tool/compilation-db.cc:161-228: one file. -/
def addFile (ws : Workspace.Map) (o : Once) (file : BazelPackage × Node) : Option Once := do
  let rules ← findTargets false file.2 [c!"cc_library", c!"cc_binary", c!"cc_test", c!"proto_library"]
  rules.foldlM (addRule ws file.1) o

/-- bant/tool/compilation-db.cc:152-231, `CollectIncDirs`. -/
def incDirs (ws : Workspace.Map) (files : List (BazelPackage × Node)) : Option (List Str) :=
  (files.foldlM (addFile ws) {}).map fun o => c!"." :: c!"bazel-bin" :: o.result

/-! ### Output -/

/-- bant/tool/compilation-db.cc:43-50: quotes, nothing is escaped. -/
def q (s : Str) : Str := '"' :: s ++ ['"']

/-- bant/tool/compilation-db.cc:52-58 -/
def commonOptions : List Str := [c!"-xc++", c!"-U_FORTIFY_SOURCE", c!"-O2", c!"-DNDEBUG"]

/-- bant/tool/compilation-db.cc:233-248, `EncodeFlagsIncludeAsJson`. -/
def flagsJson (opts dirs : List Str) : Str :=
  opts.flatMap (fun o => c!"      " ++ q o ++ c!",\n") ++
    dirs.flatMap (fun d => c!"      " ++ q c!"-iquote" ++ c!", " ++ q d ++ c!",\n")

/-- bant/tool/compilation-db.cc:265-276: what is written for a file. -/
def entry (cwd flags src : Str) : Str :=
  c!"  {\n" ++ c!"    " ++ q c!"file" ++ c!": " ++ q src ++ c!",\n" ++
  c!"    " ++ q c!"arguments" ++ c!": [\n" ++
  c!"      " ++ q c!"gcc" ++ c!",\n" ++
  commonOptions.flatMap (fun o => c!"      " ++ q o ++ c!",\n") ++
  flags ++
  c!"      " ++ q c!"-c" ++ c!", " ++ q src ++ c!",\n" ++
  c!"     ],\n" ++
  c!"     " ++ q c!"directory" ++ c!": " ++ q cwd ++ c!"\n" ++
  c!"  },\n"

/-- bant/tool/compilation-db.cc:257-263, and 303-307: the sources of a rule that matches. -/
def sources (ws : Workspace.Map) (pattern : BazelPattern) (pkg : BazelPackage) (r : Result) : Option (List Str) :=
  match pkg.qualifiedTarget r.name with
  | none => some []
  | some target =>
    if ¬ pattern.matchTarget target then some []
    else
      match stringList r.srcs, stringList r.hdrs with
      | some srcs, some hdrs => some ((srcs ++ hdrs).map (pkg.fullyQualifiedFile ws))
      | _, _ => none

/-- bant/tool/compilation-db.cc:295-311: one file. -/
def fileSources (ws : Workspace.Map) (pattern : BazelPattern) (file : BazelPackage × Node) : Option (List Str) :=
  if ¬ pattern.matchPackage file.1 then some []
  else forTargets file.2 [c!"cc_library", c!"cc_binary", c!"cc_test"] (sources ws pattern file.1)

/-- bant/tool/compilation-db.cc:280-313, `WriteCompilationDB`. Each source is written once. -/
def database (ws : Workspace.Map) (cwd : Str) (bazelrc : Option Str) (pattern : BazelPattern)
    (files : List (BazelPackage × Node)) : Option Str := do
  let dirs ← incDirs ws files
  let srcs ← mapAll (fileSources ws pattern) files
  let once := (srcs.foldl (fun o s => o.add s [s]) ({} : Once)).result
  return c!"[\n" ++ once.flatMap (entry cwd (flagsJson (fileOptions bazelrc) dirs)) ++ c!"]\n"

/-- bant/tool/compilation-db.cc:315-326, `WriteCompilationFlags`. -/
def flags (ws : Workspace.Map) (bazelrc : Option Str) (files : List (BazelPackage × Node)) : Option Str := do
  let dirs ← incDirs ws files
  return (fileOptions bazelrc).flatMap (· ++ c!"\n") ++ dirs.flatMap (fun d => c!"-I" ++ d ++ c!"\n")

end CompDb
end Bant
