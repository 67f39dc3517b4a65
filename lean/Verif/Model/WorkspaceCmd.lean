import Verif.Model.Table
import Verif.Model.Workspace

/-
Model of bant/tool/workspace.cc, the command `workspace`. `none`: undefined behaviour.
-/
namespace Bant
namespace WorkspaceCmd
open Query Workspace

/-- `project_location.insert(entry)`: nothing happens if the project is known. -/
def insert (m : Map) (e : VersionedProject × Str) : Map :=
  if m.any (fun x => x.1 = e.1) then m else assign e.1 e.2 m

/-- bant/tool/workspace.cc:65-81: what a call refers to. The argument of a call that is not a list is
accessed as one. -/
def refs (pattern : BazelPattern) (pkg : BazelPackage) (r : Result) : Option (List Str) :=
  if r.rule = c!"load" then
    match r.node with
    | .call _ (.list _ args) => strings args
    | _ => none
  else
    match pkg.qualifiedTarget r.name with
    | none => some []
    | some target =>
      if ¬ pattern.matchTarget target then some []
      else (stringList r.deps).map (· ++ if r.actual = [] then [] else [r.actual])

/-- bant/tool/workspace.cc:84-98: the body of the loop. -/
def addRef (global : Map) (pkg : BazelPackage) (m : Map) (ref : Str) : Map :=
  match BazelTarget.parseFrom ref pkg with
  | none => m
  | some t =>
    if t.package.project = [] ∨ t.package.project = pkg.project then m
    else
      match findEntry global t.package.project with
      | none => m
      | some e => insert m e

/-- bant/tool/workspace.cc:58-100: one file. -/
def addFile (global : Map) (pattern : BazelPattern) (m : Map) (file : BazelPackage × Node) : Option Map :=
  if ¬ pattern.matchPackage file.1 then some m
  else
    (forTargetsAny file.2 (refs pattern file.1)).map fun rs => rs.foldl (addRef global file.1) m
where
  /-- `FindTargetsAllowEmptyName` for all kinds of calls. -/
  forTargetsAny (ast : Node) (f : Result → Option (List Str)) : Option (List Str) :=
    (findTargets true ast []).bind (mapAll f)

/-- bant/tool/workspace.cc:51-102, `CreateFilteredWorkspace`. -/
def filtered (global : Map) (pattern : BazelPattern) (files : List (BazelPackage × Node)) : Option Map :=
  files.foldlM (addFile global pattern) []

/-- bant/tool/workspace.cc:37-49, `PrintExternalRepos`. -/
def rows (m : Map) : List Table.Op :=
  m.map fun e => .row [e.1.project, if e.1.version = [] then c!"-" else e.1.version, e.2]

/-- bant/tool/workspace.cc:104-112, `PrintMatchingWorkspaceExternalRepos`; headers: line 42. -/
def output (format : Table.Format) (global : Map) (pattern : BazelPattern)
    (files : List (BazelPackage × Node)) : Option Str :=
  let chosen := if pattern.isMatchall then some global else filtered global pattern files
  chosen.bind fun m => Table.output format [c!"project", c!"version", c!"directory"] (rows m)

end WorkspaceCmd
end Bant
