import Verif.Model.Stderr
import Verif.Spec.Commands
import Verif.Spec.Workspace
import Verif.Spec.Headers

/-! What is to be expected on standard error (C115 and following). -/
namespace Bant
namespace StderrSpec
open Commands Headers Cli CommandSpec
open Stderr (Said)

/-- What the parser says about a file. -/
def textsFor (fs : Workspace.FileSystem) (path : Str) : List Str :=
  ((fs.content path).bind (Messages.ofFile path)).getD []

/-- What is said about a file that has been found for the pattern, if the ones before are those of `before`: that it can not
be read; that another one is used for its package; or what the parser says. -/
def aboutFound (m : Machine) (ws : Workspace.Map) (project : Str) (before : List Str) (file : Str) : List Said :=
  match Collect.packageOf ws file project with
  | some (some pkg) =>
    if m.fs.content file = none then [.direct (c!"Could not read " ++ file ++ c!"\n")]
    else
      match firstReadable m ws project pkg before with
      | some (other, _) =>
        [.session (file ++ c!": Package " ++ pkg.toString ++ c!" already seen before in " ++ other ++ c!"\n")]
      | none => (textsFor m.fs file).map .session
  | _ => [.direct (file ++ c!": Can't determine package.\n")]

/-- What is said about all files that have been found for the pattern. -/
def aboutAll (m : Machine) (ws : Workspace.Map) (project : Str) (before : List Str) : List Str → List Said
  | [] => []
  | f :: fs => aboutFound m ws project before f ++ aboutAll m ws project (before ++ [f]) fs

/-- The projects that are declared in a file, and that are in none of the directories where they may be. -/
def absentIn (fs : Workspace.FileSystem) (file : Str) : List Query.Result :=
  match (fs.content file).bind Parser.parseFile with
  | none => []
  | some (ast, _) =>
    (Rules.rulesOf [c!"http_archive", c!"bazel_dep"] ast).filter fun r => (WorkspaceSpec.entryOf fs r).isNone

/-- The outputs of the `genrule`s, each with the rule. -/
def makes (files : Files) : List (BazelTarget × Str) :=
  files.flatMap fun f => (Rules.rulesOf [c!"genrule"] f.2).flatMap fun r =>
    match f.1.qualifiedTarget r.name with
    | none => []
    | some t => (Rules.stringsOf r.outs).map fun o => (t, o)

/-- The first rule that makes a file. -/
def firstMaker (outs : List (BazelTarget × Str)) (file : Str) : Option BazelTarget :=
  (outs.find? fun x => x.1.package.qualifiedFile x.2 = file).map (·.1)

/-- What is said about an output of a rule, with its location: something only if it is of the main project, and the first
that makes the file is another one. -/
def aboutOutput (outs : List (BazelTarget × Str)) (loc : Str) (target : BazelTarget) (out : Str) : Option Str :=
  let file := target.package.qualifiedFile out
  (firstMaker outs file).bind fun other =>
    if target.package.project = [] ∧ other ≠ target then
      some (loc ++ c!" '" ++ file ++ c!"' in " ++ target.toString ++ c!" also created by " ++ other.toString ++ c!"\n")
    else none

end StderrSpec
end Bant
