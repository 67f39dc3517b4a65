import Verif.Model.Elab
import Verif.Model.Headers
import Verif.Model.Ordered
import Verif.Model.TargetGlob
import Verif.Model.Workspace

/-!
The dependency graph: bant/explore/dependency-graph.cc.

Sets and maps are lists in the order of iteration: by packages, then by names of targets. `none` is
undefined behaviour. Statistics and messages are not modelled.
-/
namespace Bant
namespace DepGraph
open Query Headers

/-- What is outside of the loaded files: file system, external projects, and the result of
`glob()` in a package. -/
structure World where
  fs : Workspace.FileSystem
  workspace : Workspace.Map
  glob : BazelPackage → Elab.GlobFn

/-- bant/explore/dependency-graph.cc:40-68, `PathForPackage`. -/
def pathForPackage (w : World) (pkg : BazelPackage) : Option Str :=
  let below (root : Str) : Option Str :=
    let start :=
      if pkg.path = [] then root
      else (if root = [] then [] else root ++ ['/']) ++ pkg.path
    ([c!"BUILD", c!"BUILD.bazel"].map (Workspace.join start)).find? w.fs.canRead
  if pkg.project = [] then below []
  else
    match Workspace.findPath w.workspace pkg.project with
    | none => none
    | some root => below root

/-- bant/explore/dependency-graph.cc:79-88 with parsed-project.cc:148-210 and
elaboration.cc:295-305: the elaborated tree of a package that is not loaded yet. The inner
`none`: there is no such file. If the file cannot be read, `AddBuildFile` returns a null pointer,
that is dereferenced in `Elaborate`. -/
def load (w : World) (pkg : BazelPackage) : Option (Option Node) :=
  match pathForPackage w pkg with
  | none => some none
  | some path =>
    match w.fs.content path with
    | none => none
    | some content =>
      match Parser.parseFile content with
      | none => none
      | some (ast, _) => (Elab.elabFile (w.glob pkg) ast).map some

/-- bant/explore/dependency-graph.cc:70-90, `FindAndParseMissingPackages`. -/
def parseMissing (w : World) (files : Files) : List BazelPackage → Option Files
  | [] => some files
  | pkg :: rest =>
    match lookup files pkg with
    | some _ => parseMissing w files rest
    | none =>
      match load w pkg with
      | none => none
      | some none => parseMissing w files rest
      | some (some ast) => parseMissing w (insertNew pkg ast files) rest

/-- bant/explore/dependency-graph.h:28-31. -/
structure Graph where
  dependsOn : List (BazelTarget × List BazelTarget) := []
  hasDependents : List (BazelTarget × List BazelTarget) := []
deriving DecidableEq, Repr

/-- The variables of the loop over the packages (`todo` and `next` are sets). -/
structure Round where
  todo : List BazelTarget
  next : List BazelTarget := []
  graph : Graph

/-- bant/explore/dependency-graph.cc:168-184: one dependency of `target`. -/
def follow (target : BazelTarget) (st : Round) (dep : Str) : Round :=
  match BazelTarget.parseFrom dep target.package with
  | none => st
  | some d =>
    { st with
      next := if (lookup st.graph.dependsOn d).isNone && d ∉ st.todo then add d st.next else st.next
      graph := ⟨push target d st.graph.dependsOn, push d target st.graph.hasDependents⟩ }

/-- bant/explore/dependency-graph.cc:152-185: the callback for one rule of package `pkg`. -/
def visit (pkg : BazelPackage) (st : Round) (r : Result) : Option Round :=
  match pkg.qualifiedTarget r.name with
  | none => some st
  | some t =>
    if t ∉ st.todo then some st
    else
      match stringList r.deps with
      | none => none
      | some deps =>
        let st := { st with
          todo := st.todo.erase t
          graph := { st.graph with dependsOn := insertNew t [] st.graph.dependsOn } }
        some ((if r.actual = [] then deps else deps ++ [r.actual]).foldl (follow t) st)

/-- The callback for all rules of a package. -/
def visitAll (pkg : BazelPackage) (st : Round) : List Result → Option Round
  | [] => some st
  | r :: rs =>
    match visit pkg st r with
    | none => none
    | some st => visitAll pkg st rs

/-- bant/explore/dependency-graph.cc:148-186: the packages of this round. -/
def scan (files : Files) (st : Round) : List BazelPackage → Option Round
  | [] => some st
  | pkg :: rest =>
    match lookup files pkg with
    | none => scan files st rest
    | some ast =>
      match findTargets false ast [] with
      | none => none
      | some rs =>
        match visitAll pkg st rs with
        | none => none
        | some st => scan files st rest

/-- bant/explore/dependency-graph.cc:135-192: one iteration of the loop: the files of the project
after it, and the variables; `next` is the `todo` of the next iteration. -/
def round (w : World) (files : Files) (graph : Graph) (todo : List BazelTarget) :
    Option (Files × Round) :=
  let packages := todo.foldl (fun s t => add t.package s) []
  match parseMissing w files packages with
  | none => none
  | some files =>
    (scan files { todo := todo, graph := graph } packages).map fun st => (files, st)

/-- bant/explore/dependency-graph.cc:134-193: the loop; `n` is `nesting_depth`. -/
def rounds (w : World) (files : Files) (graph : Graph) (todo : List BazelTarget) :
    Nat → Option (Files × Graph)
  | 0 => (round w files graph todo).map fun r => (r.1, r.2.graph)
  | n + 1 =>
    match round w files graph todo with
    | none => none
    | some (files, st) =>
      if st.next = [] then some (files, st.graph) else rounds w files st.graph st.next n

/-- bant/explore/dependency-graph.cc:122-131: the targets to begin with. -/
def initial (pattern : BazelPattern) (files : Files) : Option (List BazelTarget) :=
  (mapAll (fun f =>
    if !pattern.matchPackage f.1 then some []
    else forTargets f.2 [] fun r =>
      match f.1.qualifiedTarget r.name with
      | none => some []
      | some t => if pattern.matchTarget t then some [t] else some []) files).map
    (·.foldl (fun s t => add t s) [])

/-- bant/explore/dependency-graph.cc:103-211, `BuildDependencyGraph`: the files of the project
afterwards, and the graph. -/
def build (w : World) (pattern : BazelPattern) (depth : Int) (files : Files) : Option (Files × Graph) :=
  match initial pattern files with
  | none => none
  | some todo => rounds w files {} todo depth.toNat

end DepGraph
end Bant
