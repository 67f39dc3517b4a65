import Verif.Model.FileUtils
import Verif.Model.Project

/-!
Finding the BUILD files for a pattern, and the packages they define:
bant/frontend/parsed-project.cc 44-146. File system, workspace and memory addresses are parameters.
-/
namespace Bant

namespace Collect

/-- bant/frontend/parsed-project.cc:50-56, `TargetPathFromBuildFile`. -/
def targetPathFromBuildFile (file : Str) : Str :=
  (beforeLast '/' file).dropWhile fun c => c == '.' || c == '/'

/-- bant/frontend/parsed-project.cc:60-75, `DetermineSearchDirFromPattern`; `none` if the project
is not known. -/
def searchDir (ws : Workspace.Map) (pattern : BazelPattern) : Option Str :=
  let package := pattern.pattern.package
  let orDot (dir : Str) : Str := if dir = [] then c!"." else dir
  if package.project ≠ [] then
    match Workspace.findPath ws package.project with
    | none => none
    | some root => some (orDot (root ++ c!"/" ++ package.path))
  else some (orDot package.path)

/-- bant/frontend/parsed-project.cc:89-93, `is_build_file_predicate`. -/
def isBuildFile (file : Str) : Bool :=
  Workspace.filename file = c!"BUILD" ∨ Workspace.filename file = c!"BUILD.bazel"

/-- bant/frontend/parsed-project.cc:95-105, `dir_predicate`. -/
def wantDir (symlink : Str → Bool) (recursive : Bool) (dir : Str) : Bool :=
  if !recursive then false
  else if symlink dir then false
  else if Workspace.filename dir = c!"_tmp" then false
  else if Workspace.filename dir = c!".cache" then false
  else if Workspace.filename dir = c!".git" then false
  else true

/-- bant/frontend/parsed-project.cc:80-110, `CollectBuildFiles`; `symlink` is
`FilesystemPath::is_symlink`. `none`: the walk is not finished after `n` iterations. -/
def collectBuildFiles (t : FileUtils.Tree) (symlink : Str → Bool) (ws : Workspace.Map)
    (pattern : BazelPattern) (n : Nat) : Option (List Str) :=
  match searchDir ws pattern with
  | none => some []
  | some dir => FileUtils.collectFilesRecursive t dir (wantDir symlink pattern.isRecursive) isBuildFile n

/-- bant/frontend/parsed-project.cc:127-142, `AddBuildFile` with a project: the package. The inner
`none` is that the project is not known; the outer, that `substr` throws. -/
def packageOf (ws : Workspace.Map) (file project : Str) : Option (Option BazelPackage) :=
  if project = [] then some (some ⟨project, targetPathFromBuildFile file⟩)
  else
    match Workspace.findPath ws project with
    | none => some none
    | some root =>
      if root.length ≤ file.length then
        some (some ⟨project, targetPathFromBuildFile (file.drop root.length)⟩)
      else none

/-- bant/frontend/parsed-project.cc:120-122 with 143: one iteration. `read` is what
`ReadFileToString` returns, `base` where it is put. -/
def addFound (ws : Workspace.Map) (project : Str) (read : Str → Option Str) (base : Str → Nat)
    (p : Project.State) (file : Str) : Option Project.State :=
  match packageOf ws file project with
  | none => none
  | some none => some p
  | some (some pkg) => (p.addFile pkg file (read file) (base file)).map (·.2)

/-- bant/frontend/parsed-project.cc:117-125, `FillFromPattern`: the project, and the number of
files. `none`: as in `collectBuildFiles` or `packageOf`, or the parser does not return. -/
def fillFromPattern (t : FileUtils.Tree) (symlink : Str → Bool) (ws : Workspace.Map)
    (read : Str → Option Str) (base : Str → Nat) (p : Project.State) (pattern : BazelPattern) (n : Nat) :
    Option (Project.State × Nat) :=
  match collectBuildFiles t symlink ws pattern n with
  | none => none
  | some files =>
    (files.foldlM (addFound ws pattern.pattern.package.project read base) p).map fun p =>
      (p, files.length)

end Collect
end Bant
