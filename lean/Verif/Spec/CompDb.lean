import Verif.Spec.Headers
import Verif.Spec.Json
import Verif.Spec.Workspace

/-! Specification of the commands `compilation-db` and `compile-flags` (C76 - C80). -/
namespace Bant
namespace CompDbSpec
open Query Rules

/-- Each element where it comes first. -/
def firsts : List Str → List Str
  | [] => []
  | x :: xs => x :: (firsts xs).filter (· ≠ x)

/-! ### Sources and the database -/

/-- The sources and headers of a rule. -/
def sourcesOf (ws : Workspace.Map) (pattern : BazelPattern) (pkg : BazelPackage) (r : Result) : List Str :=
  match pkg.qualifiedTarget r.name with
  | none => []
  | some t =>
    if pattern.matchTarget t then (stringsOf r.srcs ++ stringsOf r.hdrs).map (pkg.fullyQualifiedFile ws) else []

/-- The sources and headers of all rules that match, in the order of the files. -/
def allSources (ws : Workspace.Map) (pattern : BazelPattern) (files : List (BazelPackage × Node)) : List Str :=
  files.flatMap fun f =>
    if pattern.matchPackage f.1 then
      (rulesOf [c!"cc_library", c!"cc_binary", c!"cc_test"] f.2).flatMap (sourcesOf ws pattern f.1)
    else []

/-- How a source is compiled. -/
def command (opts dirs : List Str) (src : Str) : List Str :=
  [c!"gcc", c!"-xc++", c!"-U_FORTIFY_SOURCE", c!"-O2", c!"-DNDEBUG"] ++ opts ++
    dirs.flatMap (fun d => [c!"-iquote", d]) ++ [c!"-c", src]

/-- An entry of a compilation database. -/
def entryOf (cwd : Str) (opts dirs : List Str) (src : Str) : Json.Value :=
  .obj [(c!"file", .str src), (c!"arguments", .arr ((command opts dirs src).map .str)), (c!"directory", .str cwd)]

/-! ### Directories -/

/-- A rule that is looked at. -/
def CcRule (files : List (BazelPackage × Node)) (pkg : BazelPackage) (r : Result) : Prop :=
  ∃ ast, (pkg, ast) ∈ files ∧ r ∈ rulesOf [c!"cc_library", c!"cc_binary", c!"cc_test", c!"proto_library"] ast

/-- Where files are generated for an external project. -/
def generated (project : Str) : Str := c!"bazel-bin/external/" ++ project.drop 1

/-- Another project that a rule depends on. -/
def DependsOnProject (files : List (BazelPackage × Node)) (project : Str) : Prop :=
  ∃ pkg r d t, CcRule files pkg r ∧ d ∈ stringsOf r.deps ∧ BazelTarget.parseFrom d pkg = some t ∧
    t.package.project = project ∧ project ≠ []

/-- The directories in which to look for headers. -/
inductive Dir (ws : Workspace.Map) (files : List (BazelPackage × Node)) : Str → Prop
  | here : Dir ws files c!"."
  | output : Dir ws files c!"bazel-bin"
  /-- As declared by a rule. -/
  | declared {pkg r d} : CcRule files pkg r → d ∈ stringsOf r.includes → Dir ws files (pkg.fullyQualifiedFile ws d)
  /-- Made by bazel for rules that prescribe a directory. -/
  | virtual {pkg r t} : CcRule files pkg r → r.includePrefix ≠ [] → pkg.qualifiedTarget r.name = some t →
      Dir ws files (generated pkg.project ++ c!"/" ++ pkg.path ++ c!"/_virtual_includes/" ++ t.name)
  /-- Sources of other projects. -/
  | project {p dir} : DependsOnProject files p → Workspace.findPath ws p = some dir → Dir ws files dir
  /-- Generated files of other projects. -/
  | generatedFor {p dir} : DependsOnProject files p → Workspace.findPath ws p = some dir → Dir ws files (generated p)
  /-- For projects that are called something with protobuf. -/
  | protobuf {pkg r p t} : CcRule files pkg r → c!"protobuf" <:+: pkg.project →
      (p, t) ∈ [([], c!"protobuf_headers"), (c!"stubs/", c!"lite"), (c!"io/", c!"io")] →
      Dir ws files (generated pkg.project ++ c!"/src/google/protobuf/" ++ p ++ c!"_virtual_includes/" ++ t)
  | protoLibrary {pkg r t} : CcRule files pkg r → c!"protobuf" <:+: pkg.project → r.rule = c!"proto_library" →
      pkg.qualifiedTarget r.name = some t →
      Dir ws files (generated pkg.project ++ c!"/src/google/protobuf/_virtual_includes/" ++ t.name)

/-- Projects have names that begin with `@`, the main project has no name. -/
def Named (files : List (BazelPackage × Node)) : Prop :=
  ∀ f ∈ files, f.1.project = [] ∨ f.1.project.head? = some '@'

/-- No directory is called like a project, or like something internal; and not more than one project is called
something with protobuf. -/
structure NoClash (ws : Workspace.Map) (files : List (BazelPackage × Node)) : Prop where
  named : Named files
  dirs : ∀ pkg r d, CcRule files pkg r → d ∈ stringsOf r.includes →
    (pkg.fullyQualifiedFile ws d).head? ≠ some '@' ∧ pkg.fullyQualifiedFile ws d ≠ c!"protobuf-extra-include-hack"
  one : ∀ pkg r pkg' r', CcRule files pkg r → CcRule files pkg' r' → c!"protobuf" <:+: pkg.project →
    c!"protobuf" <:+: pkg'.project → pkg.project = pkg'.project

/-- The compiler finds `file` in a directory, if it is included as `inc`. -/
def Finds (dir inc file : Str) : Prop :=
  (dir = c!"." ∧ inc = file) ∨ ∃ d, HeaderSpec.DirOf dir d ∧ d ++ inc = file

/-! ### Options -/

/-- A line of a text. -/
def LineOf (text line : Str) : Prop :=
  ∃ a b, text = a ++ line ++ b ∧ '\n' ∉ line ∧ (a = [] ∨ a.getLast? = some '\n') ∧ (b = [] ∨ b.head? = some '\n')

/-- Parts between blanks. -/
def words : Str → List Str
  | [] => []
  | c :: cs =>
    if c ∈ c!" \t\n\x0c\r" then words cs
    else match cs with
      | [] => [[c]]
      | d :: _ =>
        if d ∈ c!" \t\n\x0c\r" then [c] :: words cs
        else match words cs with
          | w :: ws => (c :: w) :: ws
          | [] => [[c]]

/-- Something like `-x`. -/
def isOption : Str → Bool
  | '-' :: _ :: _ => true
  | _ => false

/-- The options that are set; `value`: the word before was a flag without a value. -/
def wanted (value : Bool) : List Str → List Str
  | [] => []
  | w :: ws =>
    if value && isOption w then w :: wanted false ws
    else if w = c!"--cxxopt" ∨ w = c!"--host_cxxopt" then wanted true ws
    else if c!"--cxxopt=".isPrefixOf w then w.drop 9 :: wanted false ws
    else if c!"--host_cxxopt=".isPrefixOf w then w.drop 14 :: wanted false ws
    else wanted false ws

/-- A word without quotes; if it is about options, it is a flag, or a flag with a value. -/
def SimpleWord (w : Str) : Prop :=
  '"' ∉ w ∧ '\'' ∉ w ∧ w.head? ≠ some '=' ∧
    (¬ c!"cxxopt" <:+: w ∨ w = c!"--cxxopt" ∨ w = c!"--host_cxxopt" ∨
      ∃ v, isOption v = true ∧ (w = c!"--cxxopt=" ++ v ∨ w = c!"--host_cxxopt=" ++ v))

/-- An option with its flag, as it can be written; quotes only have to be in front of it. -/
def FlagFor (x opt : Str) : Prop :=
  ∃ flag blanks eq blanks' quote v, x = flag ++ blanks ++ eq ++ blanks' ++ quote ++ opt ∧
    flag ∈ [c!"--cxxopt", c!"--host_cxxopt"] ∧ (∀ c ∈ blanks, c ∈ c!" \t\n\x0c\r") ∧ eq ∈ [[], c!"="] ∧
    (∀ c ∈ blanks', c ∈ c!" \t\n\x0c\r") ∧ quote ∈ [[], c!"\"", c!"'"] ∧
    opt = '-' :: v ∧ v ≠ [] ∧ ∀ c ∈ v, c ∉ c!" \t\n\x0c\r\"'"

/-- The options in a text: the first one reaches to the next blank or quote; the others are after it. -/
inductive OptionsIn : Str → List Str → Prop
  | none {text : Str} : (∀ x opt, FlagFor x opt → ¬ x <:+: text) → OptionsIn text []
  | first {before x opt after text : Str} {opts : List Str} : text = before ++ x ++ after → FlagFor x opt →
      (∀ c, after.head? = some c → c ∈ c!" \t\n\x0c\r\"'") →
      (∀ a x' opt' b, FlagFor x' opt' → text = a ++ x' ++ b → before.length ≤ a.length) →
      OptionsIn after opts → OptionsIn text (opt :: opts)

end CompDbSpec
end Bant
