import Verif.Model.Parser
import Verif.Model.Query
import Verif.Model.StrMap
import Verif.Model.TypesBazel

/-!
External projects: bant/workspace.{h,cc}, and `BazelPackage::FullyQualifiedFile`.

A `FilesystemPath` is the string of its path. The file system is a parameter. Messages are not
modelled.
-/
namespace Bant

/-- bant/workspace.h:30-37, `VersionedProject`. -/
structure VersionedProject where
  project : Str
  version : Str
deriving DecidableEq, Repr

namespace Workspace

/-- bant/workspace.h:36: the order of members. -/
def vpLt (a b : VersionedProject) : Bool :=
  strLt a.project b.project || (a.project = b.project && strLt a.version b.version)

/-- bant/workspace.cc:44-59, `VersionedProject::ParseFromDir`. -/
def parseFromDir (dir : Str) : Option VersionedProject :=
  if dir = [] then none
  else if hasChar dir '~' then
    if beforeFirst '~' dir = [] then none
    else some ⟨beforeFirst '~' dir, (fromFirst '~' dir).drop 1⟩
  else some ⟨dir, []⟩

/-- bant/workspace.h:39-52, `BazelWorkspace`: the (ordered) map from projects to paths, in the
order of iteration. -/
abbrev Map := List (VersionedProject × Str)

/-- `project_location[key] = path` -/
def assign (key : VersionedProject) (path : Str) : Map → Map
  | [] => [(key, path)]
  | e :: m =>
    if vpLt key e.1 then (key, path) :: e :: m
    else if key = e.1 then (e.1, path) :: m
    else e :: assign key path m

/-- `project_location.lower_bound(key)`; `none` is the end. -/
def lowerBound (m : Map) (key : VersionedProject) : Option (VersionedProject × Str) :=
  (m.dropWhile fun e => vpLt e.1 key).head?

/-- `name.remove_prefix(1)` if there is an `@` (workspace.cc:64). -/
def dropAt : Str → Str
  | '@' :: n => n
  | n => n

/-- bant/workspace.cc:61-70, `FindEntryByProject`. -/
def findEntry (m : Map) (name : Str) : Option (VersionedProject × Str) :=
  if name = [] then none
  else
    match lowerBound m ⟨dropAt name, []⟩ with
    | none => none
    | some e => if e.1.project ≠ dropAt name then none else some e

/-- bant/workspace.cc:72-77, `FindPathByProject`. -/
def findPath (m : Map) (name : Str) : Option Str := (findEntry m name).map (·.2)

/-- What is seen of the file system. `glob` is the result of a shell pattern. -/
structure FileSystem where
  isDirectory : Str → Bool
  canRead : Str → Bool
  content : Str → Option Str
  glob : Str → List Str

/-- bant/workspace.cc:41-42 -/
def externalBaseDir : Str := c!"bazel-out/../../../external"

/-- bant/util/file-utils.cc:102-110, `FilesystemPath::filename`: what comes after the last
slash. -/
def filename (path : Str) : Str :=
  match splitLast '/' path with
  | some (_, f) => f
  | none => path

/-- bant/workspace.cc:82-93: one step of the loop. -/
def augmentStep (fs : FileSystem) (r : Bool × Map) (dir : Str) : Bool × Map :=
  if ¬ fs.isDirectory dir then r
  else
    match parseFromDir (filename dir) with
    | none => r
    | some p =>
      if (findPath r.2 p.project).isNone then (true, assign p dir r.2) else r

/-- bant/workspace.cc:79-95, `BestEffortAugmentFromExternalDir`. -/
def augment (fs : FileSystem) (m : Map) : Bool × Map :=
  (fs.glob (externalBaseDir ++ c!"/*")).foldl (augmentStep fs) (false, m)

/-- bant/util/file-utils.cc:41-47, `FilesystemPath(path_up_to, filename)`. -/
def join (upTo file : Str) : Str := stripBack '/' upTo ++ '/' :: file

/-- bant/workspace.cc:128-135: the directories to look at. -/
def searchDirs (r : Query.Result) : List Str :=
  (if r.version ≠ [] then [r.name ++ '~' :: r.version] else []) ++ [r.name, r.name ++ c!"~override"]

/-- bant/workspace.cc:137-155: the directory of the project. -/
def projectDir (fs : FileSystem) (r : Query.Result) : Option Str :=
  match ((searchDirs r).map (join externalBaseDir)).find? fun p => fs.isDirectory p && fs.canRead p with
  | some p => some p
  | none =>
    match fs.glob (externalBaseDir ++ '/' :: r.name ++ c!"~*") with
    | [] => none
    | p :: _ => if fs.isDirectory p && fs.canRead p then some p else none

/-- bant/workspace.cc:125-168: the callback. -/
def addProject (fs : FileSystem) (m : Map) (r : Query.Result) : Map :=
  match projectDir fs r with
  | none => m
  | some path => assign ⟨if r.repoName = [] then r.name else r.repoName, r.version⟩ path m

/-- bant/workspace.cc:101-103 -/
def wsFiles : List Str := [c!"WORKSPACE", c!"WORKSPACE.bazel", c!"WORKSPACE.bzlmod", c!"MODULE.bazel"]

/-- bant/workspace.cc:109-169: one step of the loop; the flag is `workspace_found`. `none`: the
parser does not return, or undefined behaviour in `FindTargets`. -/
def loadFile (fs : FileSystem) (r : Bool × Map) (ws : Str) : Option (Bool × Map) :=
  match fs.content ws with
  | none => some r
  | some content =>
    match Parser.parseFile content with
    | none => none
    | some (ast, _) =>
      match Query.findTargets false ast [c!"http_archive", c!"bazel_dep"] with
      | none => none
      | some found => some (r.1 || !ast.isNull, found.foldl (addProject fs) r.2)

/-- bant/workspace.cc:97-180, `LoadWorkspace`; the inner `none`: no workspace. -/
def load (fs : FileSystem) : Option (Option Map) :=
  (wsFiles.foldlM (loadFile fs) (false, [])).map fun r => if r.1 then some r.2 else none

end Workspace

/-- bant/types-bazel.cc:56-67, `BazelPackage::FullyQualifiedFile`. -/
def BazelPackage.fullyQualifiedFile (p : BazelPackage) (workspace : Workspace.Map) (rel : Str) : Str :=
  let root := if p.project = [] then [] else (Workspace.findPath workspace p.project).getD []
  (if root = [] then [] else root ++ ['/']) ++ p.qualifiedFile rel

end Bant
