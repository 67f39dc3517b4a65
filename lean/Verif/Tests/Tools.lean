import Verif.Model.Stderr
import Verif.Props.Commands

/-
The unit tests of bant/frontend/elaboration_test.cc, bant/explore/query-utils_test.cc,
bant/explore/header-providers_test.cc, bant/tool/canon-targets_test.cc and bant/tool/dwyu_test.cc, on the model:
evidence that the model is a model of this code. (Nothing is proved for all inputs here.)
-/
namespace Bant
namespace Tests
namespace Tools
open Commands Located Headers

/-- bant/frontend/parsed-project_testutil.h:36-45, `Add`: a file with the given package and content. -/
def file (package content : Str) : Option (BazelPackage × Held) :=
  (BazelPackage.parseFrom package).bind fun pkg =>
    (parseFile content).map fun r =>
      (pkg, ⟨⟨package ++ c!"/BUILD", content, (Project.scanTimes r.2.scans (Scanner.init content)).lines⟩, r.1,
        !r.2.errs.isEmpty⟩)

/-- A project with the given packages. -/
def project (files : List (Str × Str)) : Option Holding :=
  (each (fun f => file f.1 f.2) files).map fun l => l.foldl (fun l f => place (·.1) f l) []

/-- bant/frontend/parsed-project_testutil.h:50-53, `ElaborateAll`. -/
def elaborated (files : List (Str × Str)) : Option Holding :=
  (project files).bind (elaborateAll fun _ _ _ => [])

def target (s : Str) : Option BazelTarget := BazelTarget.parseFrom s ⟨[], []⟩

/-! ### bant/frontend/elaboration_test.cc -/

/-- bant/frontend/elaboration_test.cc:36-50, `ElabAndPrint`: whether both are printed in the same way. -/
def sameAfter (text expected : Str) : Bool :=
  match elaborated [(c!"//elab", text)], project [(c!"//expected", expected)] with
  | some [(_, f)], some [(_, g)] => Print.print 0 f.tree.plain == Print.print 0 g.tree.plain
  | _, _ => false

/-! bant/frontend/elaboration_test.cc:61-87, `ExpandVariables` -/
def textExpandVariables : Str :=
    c!"\n" ++
    c!"BAR = \"bar.cc\"\n" ++
    c!"BAR_REF = BAR        # let's create a couple of indirections\n" ++
    c!"SOURCES = [\"foo.cc\", BAR_REF]\n" ++
    c!"\n" ++
    c!"cc_library(\n" ++
    c!"  name = \"foo\",\n" ++
    c!"  srcs = SOURCES,    # global variable SOURCES should be expanded\n" ++
    c!"  baz = name,        # nested symbol 'name' should not be expanded\n" ++
    c!")\n"
example : sameAfter textExpandVariables (
    c!"\n" ++
    c!"BAR = \"bar.cc\"\n" ++
    c!"BAR_REF = \"bar.cc\"   # ... indirections resolved\n" ++
    c!"SOURCES = [\"foo.cc\", \"bar.cc\"]\n" ++
    c!"\n" ++
    c!"cc_library(\n" ++
    c!"  name = \"foo\",\n" ++
    c!"  srcs = [\"foo.cc\", \"bar.cc\"],  # <- expanded\n" ++
    c!"  baz = name,                   # <- not expanded\n" ++
    c!")\n") = true := by
  decide +kernel

/-! bant/frontend/elaboration_test.cc:89-107, `ConcatLists` -/
def textConcatLists : Str :=
    c!"\n" ++
    c!"FOO = [\"baz.cc\", \"qux.cc\"]\n" ++
    c!"cc_library(\n" ++
    c!"  name = \"foo\",\n" ++
    c!"  srcs = [ \"foo.cc\" ] + [ \"bar.cc\" ] + FOO\n" ++
    c!")\n"
example : sameAfter textConcatLists (
    c!"\n" ++
    c!"FOO = [\"baz.cc\", \"qux.cc\"]\n" ++
    c!"cc_library(\n" ++
    c!"  name = \"foo\",\n" ++
    c!"  srcs = [ \"foo.cc\", \"bar.cc\", \"baz.cc\", \"qux.cc\" ],\n" ++
    c!")\n") = true := by
  decide +kernel

/-! bant/frontend/elaboration_test.cc:109-126, `ConcatListWithUndefinedValue` -/
def textConcatListWithUndefinedValue : Str :=
    c!"\n" ++
    c!"# UNDEFINED_VALUE\n" ++
    c!"cc_library(\n" ++
    c!"  name = \"foo\",\n" ++
    c!"  srcs = [ \"foo.cc\" ] + UNDEFINED + [ \"bar.cc\" ],\n" ++
    c!")\n"
example : sameAfter textConcatListWithUndefinedValue (
    c!"\n" ++
    c!"cc_library(\n" ++
    c!"  name = \"foo\",\n" ++
    c!"  srcs = [ \"foo.cc\", \"bar.cc\" ]    # best effort result\n" ++
    c!")\n") = true := by
  decide +kernel

/-! bant/frontend/elaboration_test.cc:128-148, `SelectChoosesConditionDefault` -/
def textSelectChoosesConditionDefault : Str :=
    c!"\n" ++
    c!"cc_library(\n" ++
    c!"  name = \"foo\",\n" ++
    c!"  srcs = select({\n" ++
    c!"     \":foo\"                 : [\"abc.cc\"],\n" ++
    c!"     [ \"not-a-string\"]      : [\"baz.cc\"],\n" ++
    c!"     \"//conditions:default\" : [\"def.cc\"],\n" ++
    c!"   })\n" ++
    c!")\n"
example : sameAfter textSelectChoosesConditionDefault (
    c!"\n" ++
    c!"cc_library(\n" ++
    c!"  name = \"foo\",\n" ++
    c!"  srcs = [\"def.cc\"]   # We don't have conditions yet, choosing default\n" ++
    c!")\n") = true := by
  decide +kernel

/-! bant/frontend/elaboration_test.cc:150-185, `ConcatStrings` -/
def textConcatStrings : Str :=
    c!"\n" ++
    c!"BAZ = \"baz\"\n" ++
    c!"cc_library(\n" ++
    c!"  name = \"foo\" + \"bar\" + BAZ,\n" ++
    c!"  include_prefix = (\"foo\" + \"bar\") + \"qux\",\n" ++
    c!")\n"
example : sameAfter textConcatStrings (
    c!"\n" ++
    c!"BAZ = \"baz\"\n" ++
    c!"cc_library(\n" ++
    c!"  name = \"foobarbaz\",\n" ++
    c!"  include_prefix = \"foobarqux\",\n" ++
    c!")\n") = true := by
  decide +kernel

/-- The names of rules, and their locations. -/
def nameLocations (files : Option Holding) : Option (List (Str × Str)) :=
  files.bind fun l => Query.mapAll (fun f =>
    (findTargets false f.2.tree []).bind (each fun r => (f.2.source.loc r.name).map fun loc => (r.name.text, loc))) l
example : nameLocations (elaborated [(c!"//elab", textConcatStrings)]) =
    some [(c!"foobarbaz", c!"//elab/BUILD:4:16:")] := by
  decide +kernel
/-- The second argument in the call that is the second statement. -/
def secondArgument : Tree → View
  | .list _ [_, .call _ (.list _ [_, .assign _ (.str v _ _)])] => v
  | _ => {}
example : ((elaborated [(c!"//elab", textConcatStrings)]).map fun l => l.map fun f =>
    ((secondArgument f.2.tree).text, f.2.source.loc (secondArgument f.2.tree))) =
    some [(c!"foobarqux", some c!"//elab/BUILD:5:36:")] := by
  decide +kernel

/-! ### bant/explore/query-utils_test.cc -/

structure Found where
  name : Str
  srcs : Option (List Str)
  hdrs : Option (List Str)
  visibility : Option (Option (List Str))
deriving DecidableEq

/-- What is found. -/
def found (text : Str) : Option (List Found) :=
  (project [(c!"//", text)]).bind fun l => Query.mapAll (fun f =>
    (Query.findTargets false f.2.tree.plain [c!"cc_library"]).map fun rs => rs.map fun r =>
      ⟨r.name, Query.stringList r.srcs, Query.stringList r.hdrs,
        r.visibility.map fun v => Query.stringList (some v)⟩) l

/-! bant/explore/query-utils_test.cc:28-44, `BasicQuery` -/
example : found (
    c!"\n" ++
    c!"cc_library(\n" ++
    c!"  name = \"foo_lib\",\n" ++
    c!"  srcs = [\"foo.cc\", \"bar.cc\"],\n" ++
    c!"  hdrs = [\"foo.h\"]\n" ++
    c!")\n") =
    some [⟨c!"foo_lib", some [c!"foo.cc", c!"bar.cc"], some [c!"foo.h"], none⟩] := by
  decide +kernel

/-! bant/explore/query-utils_test.cc:46-67, `VisibilityOnRule` -/
example : found (
    c!"\n" ++
    c!"cc_library(\n" ++
    c!"  name = \"foo_lib\",\n" ++
    c!"  visibility = [\"//foo:__pkg__\"],\n" ++
    c!")\n" ++
    c!"cc_library(\n" ++
    c!"  name = \"bar_lib\",\n" ++
    c!")\n") =
    some [⟨c!"foo_lib", some [], some [], some (some [c!"//foo:__pkg__"])⟩,
      ⟨c!"bar_lib", some [], some [], none⟩] := by
  decide +kernel

/-! bant/explore/query-utils_test.cc:69-95, `VisibilityFallbackToDefaultVisibility` -/
example : found (
    c!"\n" ++
    c!"package(\n" ++
    c!"  default_visibility = [\"//visibility:private\"],\n" ++
    c!")\n" ++
    c!"\n" ++
    c!"cc_library(\n" ++
    c!"  name = \"foo_lib\",\n" ++
    c!"  visibility = [\"//foo:__pkg__\"],\n" ++
    c!")\n" ++
    c!"cc_library(\n" ++
    c!"  name = \"bar_lib\",\n" ++
    c!")\n") =
    some [⟨c!"foo_lib", some [], some [], some (some [c!"//foo:__pkg__"])⟩,
      ⟨c!"bar_lib", some [], some [], some (some [c!"//visibility:private"])⟩] := by
  decide +kernel

/-! ### bant/explore/header-providers_test.cc -/

/-- What the map of headers has for a path, without an index by suffix: an entry for the path, and its targets in order. -/
def provided (files : List (Str × Str)) (path : Str) : Option (List BazelTarget) :=
  (project files).bind fun l => (extractHeaderToLibMapping (trees (plainOf l))).bind fun index =>
    (lookup index (HeaderIndex.keyTransform path)).map Dwyu.inOrder

def generatedBy (files : List (Str × Str)) (path : Str) : Option BazelTarget :=
  (project files).bind fun l => (extractGeneratedFromGenrule (trees (plainOf l))).bind fun m => lookup m path

/-! bant/explore/header-providers_test.cc:50-104, `CCRuleExtraction` -/
def filesCCRuleExtraction : List (Str × Str) :=
  [(c!"//some/path",
    c!"\n" ++
    c!"cc_library(\n" ++
    c!"  name = \"foo\",\n" ++
    c!"  srcs = [\"foo.cc\"],\n" ++
    c!"  hdrs = [\"foo.h\"]\n" ++
    c!")\n"),
   (c!"//other/path",
    c!"\n" ++
    c!"cc_library(\n" ++
    c!"  name = \"bar\",\n" ++
    c!"  hdrs = [\"bar.h\"]\n" ++
    c!")\n" ++
    c!"\""),
   (c!"//prefix/dir",
    c!"\n" ++
    c!"cc_library(\n" ++
    c!"  name = \"foo\",\n" ++
    c!"  hdrs = [\"foo.h\"],\n" ++
    c!"  include_prefix = \"yolo\"            # Lib says where header actually is\n" ++
    c!")\n" ++
    c!"cc_library(\n" ++
    c!"  name = \"bar\",\n" ++
    c!"  hdrs = [\"bar.h\"],\n" ++
    c!"  strip_include_prefix = \"prefix\",   # Remove prefix from current package\n" ++
    c!")\n" ++
    c!"cc_library(\n" ++
    c!"  name = \"baz\",\n" ++
    c!"  hdrs = [\"subdir/baz.h\"],\n" ++
    c!"  includes =[                        # allow to -I without that subdir\n" ++
    c!"     \"prefix/dir/subdir\",\n" ++
    c!"     \"prefix/dir/\",                  # trailing slash should not trip\n" ++
    c!"     # TODO: should it also works as \"subdir\" with package as implicit prefix?\n" ++
    c!"  ]\n" ++
    c!"],\n" ++
    c!")\n")]
example : (provided filesCCRuleExtraction c!"some/path/foo.h").map (·.map some) = some [target c!"//some/path:foo"] := by
  decide +kernel
example : (provided filesCCRuleExtraction c!"other/path/bar.h").map (·.map some) = some [target c!"//other/path:bar"] := by
  decide +kernel
example : (provided filesCCRuleExtraction c!"yolo/foo.h").map (·.map some) = some [target c!"//prefix/dir:foo"] := by
  decide +kernel
example : (provided filesCCRuleExtraction c!"dir/bar.h").map (·.map some) = some [target c!"//prefix/dir:bar"] := by
  decide +kernel
example : (provided filesCCRuleExtraction c!"baz.h").map (·.map some) = some [target c!"//prefix/dir:baz"] := by
  decide +kernel
example : (provided filesCCRuleExtraction c!"subdir/baz.h").map (·.map some) = some [target c!"//prefix/dir:baz"] := by
  decide +kernel
example : (provided filesCCRuleExtraction c!"prefix/dir/subdir/baz.h").map (·.map some) = some [target c!"//prefix/dir:baz"] := by
  decide +kernel

/-! bant/explore/header-providers_test.cc:106-128, `InludePathsAreRelativePathCanonicalized` -/
def filesInludePathsAreRelativePathCanonicalized : List (Str × Str) :=
  [(c!"//",
    c!"\n" ++
    c!"cc_library(\n" ++
    c!"  name = \"foo\",\n" ++
    c!"  srcs = [\"foo.cc\"],\n" ++
    c!"  include_prefix = \".\",\n" ++
    c!"  hdrs = [\"foo.h\"]\n" ++
    c!")\n" ++
    c!"\n" ++
    c!"cc_library(\n" ++
    c!"  name = \"bar\",\n" ++
    c!"  srcs = [\"bar.cc\"],\n" ++
    c!"  include_prefix = \"./\",\n" ++
    c!"  hdrs = [\"bar.h\"]\n" ++
    c!")\n")]
example : (provided filesInludePathsAreRelativePathCanonicalized c!"foo.h").map (·.map some) = some [target c!"//:foo"] := by
  decide +kernel
example : (provided filesInludePathsAreRelativePathCanonicalized c!"bar.h").map (·.map some) = some [target c!"//:bar"] := by
  decide +kernel

/-! bant/explore/header-providers_test.cc:131-150, `MultipleCCLibsProvideSameHeader` -/
def filesMultipleCCLibsProvideSameHeader : List (Str × Str) :=
  [(c!"//some/path",
    c!"\n" ++
    c!"cc_library(\n" ++
    c!"  name = \"foo\",\n" ++
    c!"  srcs = [\"foo.cc\"],\n" ++
    c!"  hdrs = [\"foo.h\"]\n" ++
    c!")\n" ++
    c!"cc_library(\n" ++
    c!"  name = \"bar\",\n" ++
    c!"  srcs = [\"bar.cc\"],\n" ++
    c!"  hdrs = [\"foo.h\"]\n" ++
    c!")\n")]
example : (provided filesMultipleCCLibsProvideSameHeader c!"some/path/foo.h").map (·.map some) =
    some [target c!"//some/path:bar", target c!"//some/path:foo"] := by
  decide +kernel

/-! bant/explore/header-providers_test.cc:152-186, `ProtoLibraryExtraction` -/
def filesProtoLibraryExtraction : List (Str × Str) :=
  [(c!"//ptest",
    c!"\n" ++
    c!"proto_library(\n" ++
    c!"   name = \"all_protos\",\n" ++
    c!"   srcs = [                   # derived from these are the header names ...\n" ++
    c!"      \"data.proto\",\n" ++
    c!"      \":general.proto\",       # also prefix ':' should work.\n" ++
    c!"   ]\n" ++
    c!")\n" ++
    c!"cc_proto_library(\n" ++
    c!"  name = \"foo\",               # ... and this is the cc_library it shows up as.\n" ++
    c!"  deps = [\":all_protos\"],\n" ++
    c!")\n" ++
    c!"\n" ++
    c!"cc_grpc_library(              # GRPC form of a proto library.\n" ++
    c!"  name = \"grpc_foo\",\n" ++
    c!"  srcs = [\":all_protos\"],\n" ++
    c!")\n")]
example : (provided filesProtoLibraryExtraction c!"ptest/data.pb.h").map (·.map some) = some [target c!"//ptest:foo"] := by
  decide +kernel
example : (provided filesProtoLibraryExtraction c!"ptest/general.pb.h").map (·.map some) = some [target c!"//ptest:foo"] := by
  decide +kernel
example : (provided filesProtoLibraryExtraction c!"ptest/general.proto.h").map (·.map some) = some [target c!"//ptest:foo"] := by
  decide +kernel
example : (provided filesProtoLibraryExtraction c!"ptest/data.grpc.pb.h").map (·.map some) = some [target c!"//ptest:grpc_foo"] := by
  decide +kernel
example : (provided filesProtoLibraryExtraction c!"ptest/general.grpc.pb.h").map (·.map some) = some [target c!"//ptest:grpc_foo"] := by
  decide +kernel

/-! bant/explore/header-providers_test.cc:188-206, `GenruleExtraction` -/
def filesGenruleExtraction : List (Str × Str) :=
  [(c!"//gen/ai",
    c!"\n" ++
    c!"genrule(\n" ++
    c!"  name = \"llm\",\n" ++
    c!"  outs = [\n" ++
    c!"    \"useful.txt\",\n" ++
    c!"    \"hallucination.txt\",\n" ++
    c!"    \"lucy-🌈-💎.txt\",         # jeez, that escalated quickly.\n" ++
    c!"  ],\n")]
example : generatedBy filesGenruleExtraction c!"gen/ai/useful.txt" = target c!"//gen/ai:llm" ∧ target c!"//gen/ai:llm" ≠ none := by
  decide +kernel
example : generatedBy filesGenruleExtraction c!"gen/ai/hallucination.txt" = target c!"//gen/ai:llm" ∧ target c!"//gen/ai:llm" ≠ none := by
  decide +kernel
example : generatedBy filesGenruleExtraction c!"gen/ai/lucy-🌈-💎.txt" = target c!"//gen/ai:llm" ∧ target c!"//gen/ai:llm" ≠ none := by
  decide +kernel

/-! bant/explore/header-providers_test.cc:222-273, `FindBySuffixTest` -/
def smallIndex : StrMap (List Str) :=
  HeaderIndex.fill [] [(c!"foo/bar/baz/qux.h", c!"//foo"), (c!"baz/qux.h", c!"//bar")]
def largerIndex : StrMap (List Str) := HeaderIndex.fill smallIndex [(c!"foo/bar/baz/rux.h", c!"//rux")]
/-- The score and the targets. -/
def bySuffix (index : StrMap (List Str)) (key : Str) (minimum : Nat) : Option (Option (Nat × List Str)) :=
  (HeaderIndex.findBySuffix index key minimum).map fun r => r.map fun f => (f.score, f.targets)
example : bySuffix smallIndex c!"foo/bar/baz/qux.h" 2 = some (some (0, [c!"//foo"])) := by decide +kernel
example : bySuffix smallIndex c!"baz/qux.h" 2 = some (some (0, [c!"//bar"])) := by decide +kernel
example : bySuffix smallIndex c!"qux.h" 2 = some none := by decide +kernel
example : bySuffix smallIndex c!"ux.h" 1 = some none := by decide +kernel
example : bySuffix smallIndex c!"bar/xqux.h" 1 = some none := by decide +kernel
example : bySuffix smallIndex c!"az/qux.h" 1 = some (some (1, [c!"//bar"])) := by decide +kernel
example : bySuffix smallIndex c!"r/baz/qux.h" 2 = some (some (2, [c!"//foo"])) := by decide +kernel
example : bySuffix smallIndex c!"bar/baz/qux.h" 2 = some (some (3, [c!"//foo"])) := by decide +kernel
example : bySuffix smallIndex c!"hello/foo/bar/baz/qux.h" 2 = some (some (4, [c!"//foo"])) := by decide +kernel
example : (bySuffix smallIndex c!"qux.h" 1).map Option.isSome = some true := by decide +kernel
example : bySuffix largerIndex c!"hello/foo/bar/baz/qux.h" 2 = some (some (4, [c!"//foo"])) := by
  decide +kernel

/-! ### bant/tool/canon-targets_test.cc -/

/-! bant/tool/canon-targets_test.cc:31-57, `CanonicalizeDependencies`: the edits in the order of the dependencies, and nothing said. -/
def filesCanon : List (Str × Str) :=
  [(c!"//some/path",
    c!"\n" ++
    c!"cc_library(\n" ++
    c!"  name = \"foo\",\n" ++
    c!"  srcs = [\"foo.cc\"],\n" ++
    c!"  deps = [\n" ++
    c!"    \"//some/path:bar\",        # local package, so keep local :bar\n" ++
    c!"    \"baz\",                    # add colon prefix\n" ++
    c!"    \"//flubber:flubber\",      # can be shortened to //flubber\n" ++
    c!"    \"//other/package:waldo\",  # should not change\n" ++
    c!"    \"@//other/package:qux\",   # This has a superfluous '@' in front.\n" ++
    c!"    \"@foobar//:foobar\",       # can be shortended to @foobar\n" ++
    c!"  ]\n" ++
    c!")\n")]
example : (((project filesCanon).bind fun l => canonEdits .always (trees (plainOf l))).map fun l =>
    l.map fun e => (e.op, e.before, e.after)) = some
    [(.rename, c!"//some/path:bar", c!":bar"),
     (.rename, c!"baz", c!":baz"),
     (.rename, c!"//flubber:flubber", c!"//flubber"),
     (.rename, c!"@//other/package:qux", c!"//other/package:qux"),
     (.rename, c!"@foobar//:foobar", c!"@foobar")] := by
  decide +kernel
example : ((project filesCanon).bind fun l => Stderr.canonicalize .always l) = some [] := by decide +kernel

/-! ### bant/tool/dwyu_test.cc -/

/-! bant/tool/dwyu_test.cc:59-90, `HeaderFilesAreExtracted` -/
def sourceText : Str :=
    c!"  // line 0\n" ++
    c!"/* some ignored text in line 1 */\n" ++
    c!"#include \"CaSe-dash_underscore.h\"\n" ++
    c!"#include <should_not_be_extracted>\n" ++
    c!"// #include \"also-not-extracted.h\"\n" ++
    c!"   #include \"but-this.h\"\n" ++
    c!"#include \"with/suffix.hh\"      // other ..\n" ++
    c!"#include \"with/suffix.pb.h\"\n" ++
    c!"#include \"with/suffix.inc\"     // .. common suffices\n" ++
    c!"R\"(\n" ++
    c!"#include \"bant/tool/dwyu.h\"   // include embedded in string ignored.\n" ++
    c!"\")\n" ++
    c!"#  include    \"w/space.h\"        // even strange spacing should work\n" ++
    c!"#include /* foo */ \"this-is-silly.h\"  // Some things are too far :)\n" ++
    c!"#include \"../dotdot.h\"         // mmh, who is doing this ?\n" ++
    c!"#include \"more-special-c++.h\"  // other characters used.\n"
example : (Includes.extract sourceText).map (·.2) =
    [c!"CaSe-dash_underscore.h", c!"but-this.h", c!"with/suffix.hh", c!"with/suffix.pb.h", c!"with/suffix.inc", c!"w/space.h", c!"../dotdot.h", c!"more-special-c++.h"] := by
  decide +kernel
/-- Where they start. -/
def starts (content : Str) : Option (List (Option LineColumn)) :=
  (Dwyu.lineIndex content (Includes.extract content)).map fun index =>
    (Includes.extract content).map fun i => (getLocation content index i.1 (i.1 + i.2.length)).map (·.start)
example : (starts sourceText).map (·.take 6) = some
    [some ⟨2, 10⟩, some ⟨5, 13⟩, some ⟨6, 10⟩, some ⟨7, 10⟩, some ⟨8, 10⟩, some ⟨12, 15⟩] := by
  decide +kernel

/-- bant/tool/dwyu_test.cc:95-155: the edits and the messages, with `verbose` 2. (`TryOpenFile` in the test has only
the files that are given.) -/
def dwyu (files : Option Holding) (sources : List (Str × Str)) (pattern : Str) :
    Option (List (EditRequest × Str × Str) × Str) :=
  files.bind fun l => (BazelPattern.parse globCompile pattern).bind fun p =>
    match Located.dependencyEdits (Props.disk sources) { verbose := 2 } [] p l,
      Stderr.dwyu (Props.disk sources) { verbose := 2 } [] p l with
    | some es, some ms => some (es.map fun e => (e.op, e.before, e.after), ms.dropLast.flatMap Dwyu.Message.text)
    | _, _ => none

/-- Has these edits and a message with this text; none at all if there is no text. -/
def has (r : Option (List (EditRequest × Str × Str) × Str)) (edits : List (EditRequest × Str × Str))
    (text : Option Str) : Bool :=
  match r with
  | none => false
  | some (es, ms) =>
    es.length == edits.length && edits.all (es.contains ·) &&
      match text with
      | none => ms.isEmpty
      | some t => (List.range ms.length).any fun i => t.isPrefixOf (ms.drop i)

/-! bant/tool/dwyu_test.cc:162-235, `Add_MissingDependency` -/
def filesAddMissingDependency : List (Str × Str) :=
  [(c!"//some/path",
    c!"\n" ++
    c!"cc_library(\n" ++
    c!"  name = \"foo\",\n" ++
    c!"  srcs = [\"foo.cc\"],\n" ++
    c!"  hdrs = [\"foo.h\"]\n" ++
    c!")\n" ++
    c!"\n" ++
    c!"cc_library(\n" ++
    c!"  name = \"bar\",\n" ++
    c!"  hdrs = [\"bar.h\"],   # make sure to not self-add :bar\n" ++
    c!"  srcs = [\"bar.cc\"],\n" ++
    c!"  # needed :foo dependency not given\n" ++
    c!")\n")]
example : has (dwyu (project filesAddMissingDependency)
      [(c!"some/path/bar.h", []),
      (c!"some/path/bar.cc", c!"\n#include \"some/path/foo.h\"\n#include \"some/path/bar.h\"\n")]
      c!"//some/path:bar")
    [(.add, [], c!":foo")] none = true := by
  decide +kernel
example : has (dwyu (project filesAddMissingDependency)
      [(c!"some/path/bar.h", []),
      (c!"some/path/bar.cc", c!"\n#include \"foo.h\"\n")]
      c!"//some/path:bar")
    [(.add, [], c!":foo")] (some c!"Consider FQN") = true := by
  decide +kernel
example : has (dwyu (project filesAddMissingDependency)
      [(c!"some/path/bar.h", []),
      (c!"some/path/bar.cc", c!"\n#include \"external/project/some/path/foo.h\"\n")]
      c!"//some/path:bar")
    [(.add, [], c!":foo")] (some c!"provides shorter same-suffix") = true := by
  decide +kernel
example : has (dwyu (project filesAddMissingDependency)
      [(c!"some/path/bar.h", []),
      (c!"some/path/bar.cc", c!"\n#include \"path/foo.h\"\n")]
      c!"//some/path:bar")
    [(.add, [], c!":foo")] (some c!"provides longer same-suffix") = true := by
  decide +kernel
example : has (dwyu (project filesAddMissingDependency)
      [(c!"some/path/bar.h", []),
      (c!"some/path/bar.cc", c!"\n#include \"wrongpath/foo.h\"\n")]
      c!"//some/path:bar")
    [] (some c!"foo.h -- Missing") = true := by
  decide +kernel

/-! bant/tool/dwyu_test.cc:237-255, `ToplevelIncludesWithoutPrefixSlashWork` -/
def filesToplevelIncludesWithoutPrefixSlashWork : List (Str × Str) :=
  [(c!"//",
    c!"\n" ++
    c!"cc_library(\n" ++
    c!"  name = \"foo\",\n" ++
    c!"  srcs = [\"foo.cc\"],\n" ++
    c!"  hdrs = [\"foo.h\"]\n" ++
    c!")\n")]
example : has (dwyu (project filesToplevelIncludesWithoutPrefixSlashWork)
      [(c!"foo.h", []),
      (c!"foo.cc", c!"\n#include \"foo.h\"\n")]
      c!"//:foo")
    [] none = true := by
  decide +kernel

/-! bant/tool/dwyu_test.cc:257-284, `ChooseMinimalDependencySetIfMultipleLibrariesProvideHeader` -/
def filesChooseMinimalDependencySetIfMultipleLibrariesProvideHeader : List (Str × Str) :=
  [(c!"//path",
    c!"\n" ++
    c!"cc_library(\n" ++
    c!"  name = \"allthethings\",\n" ++
    c!"  hdrs = [\"foo.h\", \"bar.h\"]\n" ++
    c!")\n" ++
    c!"\n" ++
    c!"cc_library(\n" ++
    c!"  name = \"onlyfoo\",\n" ++
    c!"  hdrs = [\"foo.h\"]\n" ++
    c!")\n" ++
    c!"\n" ++
    c!"cc_binary(\n" ++
    c!"  name = \"baz\",\n" ++
    c!"  srcs = [\"baz.cc\"],\n" ++
    c!"  deps = [\":allthethings\"],  # should be sufficient\n")]
example : has (dwyu (project filesChooseMinimalDependencySetIfMultipleLibrariesProvideHeader)
      [(c!"path/baz.cc", c!"\n#include \"path/bar.h\"   // order dependent currently.\n#include \"path/foo.h\"\n")]
      c!"//path:baz")
    [] none = true := by
  decide +kernel

/-! bant/tool/dwyu_test.cc:286-376, `RequestUserGuidanceIfThereAreMultipleAlternatives` -/
def filesRequestUserGuidanceIfThereAreMultipleAlternatives : List (Str × Str) :=
  [(c!"//path",
    c!"\n" ++
    c!"cc_library(\n" ++
    c!"  name = \"foo-1\",\n" ++
    c!"  hdrs = [\"foo.h\"]\n" ++
    c!")\n" ++
    c!"\n" ++
    c!"cc_library(\n" ++
    c!"  name = \"foo-2\",\n" ++
    c!"  hdrs = [\"foo.h\"]   # provides the _same_ header as foo-1\n" ++
    c!")\n" ++
    c!"\n" ++
    c!"cc_library(\n" ++
    c!"  name = \"usefoo-1\",\n" ++
    c!"  srcs = [\"usefoo-1.cc\"],\n" ++
    c!"  deps = [\":foo-1\"],    # choice of one of the alternatives\n" ++
    c!")\n" ++
    c!"\n" ++
    c!"cc_library(\n" ++
    c!"  name = \"usefoo-2\",\n" ++
    c!"  srcs = [\"usefoo-2.cc\"],\n" ++
    c!"  deps = [\":foo-2\"],    # choice of one of the alternatives\n" ++
    c!")\n" ++
    c!"\n" ++
    c!"cc_library(\n" ++
    c!"  name = \"usefoo-all\",\n" ++
    c!"  srcs = [\"usefoo-all.cc\"],\n" ++
    c!"  deps = [\n" ++
    c!"     \":foo-1\",\n" ++
    c!"     \":foo-2\",     # overconstrained, but will not be able to do anything about\n" ++
    c!"  ],\n" ++
    c!")\n" ++
    c!"\n" ++
    c!"cc_library(\n" ++
    c!"  name = \"usefoo-duplicate\",\n" ++
    c!"  srcs = [\"usefoo-duplicate.cc\"],\n" ++
    c!"  deps = [\n" ++
    c!"     \":foo-1\",\n" ++
    c!"     \":foo-1\",    # duplicate\n" ++
    c!"  ],\n" ++
    c!")\n" ++
    c!"\n" ++
    c!"cc_library(\n" ++
    c!"  name = \"usefoo-undecided\",\n" ++
    c!"  srcs = [\"usefoo-undecided.cc\"],\n" ++
    c!"  # No deps added. Bant will also not be able to help.\n" ++
    c!")\n")]
example : has (dwyu (project filesRequestUserGuidanceIfThereAreMultipleAlternatives)
      [(c!"path/usefoo-1.cc", c!"#include \"path/foo.h\"")]
      c!"//path:usefoo-1")
    [] none = true := by
  decide +kernel
example : has (dwyu (project filesRequestUserGuidanceIfThereAreMultipleAlternatives)
      [(c!"path/usefoo-2.cc", c!"#include \"path/foo.h\"")]
      c!"//path:usefoo-2")
    [] none = true := by
  decide +kernel
example : has (dwyu (project filesRequestUserGuidanceIfThereAreMultipleAlternatives)
      [(c!"path/usefoo-duplicate.cc", c!"#include \"path/foo.h\"")]
      c!"//path:usefoo-duplicate")
    [] (some c!"mentioned multiple times") = true := by
  decide +kernel
example : has (dwyu (project filesRequestUserGuidanceIfThereAreMultipleAlternatives)
      [(c!"path/usefoo-all.cc", c!"#include \"path/foo.h\"")]
      c!"//path:usefoo-all")
    [] (some c!"by //path:foo-1 before") = true := by
  decide +kernel
example : has (dwyu (project filesRequestUserGuidanceIfThereAreMultipleAlternatives)
      [(c!"path/usefoo-undecided.cc", c!"#include \"path/foo.h\"")]
      c!"//path:usefoo-undecided")
    [] (some c!"Alternatives are") = true := by
  decide +kernel

/-! bant/tool/dwyu_test.cc:381-412, `ChooseNonDeprecatedAlternative` -/
def filesChooseNonDeprecatedAlternative : List (Str × Str) :=
  [(c!"//some/lib",
    c!"\n" ++
    c!"alias(\n" ++
    c!"  name = \"deprecated_foo\",\n" ++
    c!"  actual = \":new_foo\",\n" ++
    c!"  deprecation = \"This note makes sure it is not considered an alternative\",\n" ++
    c!")\n" ++
    c!"\n" ++
    c!"cc_library(\n" ++
    c!"  name = \"new_foo\",\n" ++
    c!"  srcs = [\"foo.cc\"],\n" ++
    c!"  hdrs = [\"foo.h\"],\n" ++
    c!")\n"),
   (c!"//user",
    c!"\n" ++
    c!"cc_binary(\n" ++
    c!"   name = \"hello\",\n" ++
    c!"   srcs = [\"hello.cc\"],\n" ++
    c!"   deps = [\"//some/lib:deprecated_foo\"],\n" ++
    c!")\n")]
example : has (dwyu (project filesChooseNonDeprecatedAlternative)
      [(c!"user/hello.cc", c!"#include \"some/lib/foo.h\"")]
      c!"//user:hello")
    [(.add, [], c!"//some/lib:new_foo"), (.remove, c!"//some/lib:deprecated_foo", [])] none = true := by
  decide +kernel

/-! bant/tool/dwyu_test.cc:414-438, `Add_MissingDependencyInDifferentPackage` -/
def filesAddMissingDependencyInDifferentPackage : List (Str × Str) :=
  [(c!"//lib/path",
    c!"\n" ++
    c!"cc_library(\n" ++
    c!"  name = \"foo\",\n" ++
    c!"  srcs = [\"foo.cc\"],\n" ++
    c!"  hdrs = [\"foo.h\"],\n" ++
    c!")\n"),
   (c!"//some/path",
    c!"\n" ++
    c!"cc_library(\n" ++
    c!"  name = \"bar\",\n" ++
    c!"  srcs = [\"bar.cc\"],\n" ++
    c!"  # needed //lib/path:foo dependency not given\n" ++
    c!")\n")]
example : has (dwyu (project filesAddMissingDependencyInDifferentPackage)
      [(c!"some/path/bar.cc", c!"\n#include \"lib/path/foo.h\"\n")]
      c!"//some/path:bar")
    [(.add, [], c!"//lib/path:foo")] none = true := by
  decide +kernel

/-! bant/tool/dwyu_test.cc:440-465, `DoNotAdd_IfNotVisible` -/
def filesDoNotAddIfNotVisible : List (Str × Str) :=
  [(c!"//lib/path",
    c!"\n" ++
    c!"cc_library(\n" ++
    c!"  name = \"foo\",\n" ++
    c!"  srcs = [\"foo.cc\"],\n" ++
    c!"  hdrs = [\"foo.h\"],\n" ++
    c!"  visibility = [\"//visibility:private\"],  # Should not link outside\n" ++
    c!")\n"),
   (c!"//some/path",
    c!"\n" ++
    c!"cc_library(\n" ++
    c!"  name = \"bar\",\n" ++
    c!"  srcs = [\"bar.cc\"],\n" ++
    c!"  # needed //lib/path:foo dependency not given, but it is private\n" ++
    c!")\n")]
example : has (dwyu (project filesDoNotAddIfNotVisible)
      [(c!"some/path/bar.cc", c!"\n#include \"lib/path/foo.h\"\n")]
      c!"//some/path:bar")
    [] none = true := by
  decide +kernel

/-! bant/tool/dwyu_test.cc:469-493, `Add_IfVisibilityIsPackageGroup` -/
def filesAddIfVisibilityIsPackageGroup : List (Str × Str) :=
  [(c!"//lib/path",
    c!"\n" ++
    c!"cc_library(\n" ++
    c!"  name = \"foo\",\n" ++
    c!"  srcs = [\"foo.cc\"],\n" ++
    c!"  hdrs = [\"foo.h\"],\n" ++
    c!"  visibility = [\"//some/package:group\"],  # Should be considered public for now\n" ++
    c!")\n"),
   (c!"//some/path",
    c!"\n" ++
    c!"cc_library(\n" ++
    c!"  name = \"bar\",\n" ++
    c!"  srcs = [\"bar.cc\"],\n" ++
    c!")\n")]
example : has (dwyu (project filesAddIfVisibilityIsPackageGroup)
      [(c!"some/path/bar.cc", c!"\n#include \"lib/path/foo.h\"\n")]
      c!"//some/path:bar")
    [(.add, [], c!"//lib/path:foo")] none = true := by
  decide +kernel

/-! bant/tool/dwyu_test.cc:495-528, `AllowVisibilityFromVariable` -/
def filesAllowVisibilityFromVariablePublic : List (Str × Str) :=
  [(c!"//lib/path",
    c!"\n" ++
    c!"VISIBILITY_VARIABLE = \"//visibility:public\"\n" ++
    c!"cc_library(\n" ++
    c!"  name = \"foo\",\n" ++
    c!"  srcs = [\"foo.cc\"],\n" ++
    c!"  hdrs = [\"foo.h\"],\n" ++
    c!"  visibility = [ VISIBILITY_VARIABLE ],\n" ++
    c!")\n"),
   (c!"//some/path",
    c!"\n" ++
    c!"cc_library(\n" ++
    c!"  name = \"bar\",\n" ++
    c!"  srcs = [\"bar.cc\"],\n" ++
    c!")\n")]
example : has (dwyu (elaborated filesAllowVisibilityFromVariablePublic)
      [(c!"some/path/bar.cc", c!"\n#include \"lib/path/foo.h\"\n")]
      c!"//some/path:bar")
    [(.add, [], c!"//lib/path:foo")] none = true := by
  decide +kernel
def filesAllowVisibilityFromVariablePrivate : List (Str × Str) :=
  [(c!"//lib/path",
    c!"\n" ++
    c!"VISIBILITY_VARIABLE = \"//visibility:private\"\n" ++
    c!"cc_library(\n" ++
    c!"  name = \"foo\",\n" ++
    c!"  srcs = [\"foo.cc\"],\n" ++
    c!"  hdrs = [\"foo.h\"],\n" ++
    c!"  visibility = [ VISIBILITY_VARIABLE ],\n" ++
    c!")\n"),
   (c!"//some/path",
    c!"\n" ++
    c!"cc_library(\n" ++
    c!"  name = \"bar\",\n" ++
    c!"  srcs = [\"bar.cc\"],\n" ++
    c!")\n")]
example : has (dwyu (elaborated filesAllowVisibilityFromVariablePrivate)
      [(c!"some/path/bar.cc", c!"\n#include \"lib/path/foo.h\"\n")]
      c!"//some/path:bar")
    [] none = true := by
  decide +kernel

/-! bant/tool/dwyu_test.cc:532-562, `VisibilityOfAliasAllowsToBeLinkedEvenIfTargetIsNotVisible` -/
def filesVisibilityOfAliasAllowsToBeLinkedEvenIfTargetIsNotVisible : List (Str × Str) :=
  [(c!"//some/lib",
    c!"\n" ++
    c!"alias(\n" ++
    c!"  name = \"visible_foo_alias\",\n" ++
    c!"  actual = \":private_foo\",\n" ++
    c!"  visibility = [\"//visibility:public\"],   # points to lib with correct header\n" ++
    c!")\n" ++
    c!"\n" ++
    c!"cc_library(\n" ++
    c!"  name = \"private_foo\",\n" ++
    c!"  srcs = [\"foo.cc\"],\n" ++
    c!"  hdrs = [\"foo.h\"],\n" ++
    c!"  visibility = [\"//visibility:private\"],   # can't use this directly\n" ++
    c!")\n"),
   (c!"//user",
    c!"\n" ++
    c!"cc_binary(\n" ++
    c!"   name = \"hello\",\n" ++
    c!"   srcs = [\"hello.cc\"],\n" ++
    c!")\n")]
example : has (dwyu (project filesVisibilityOfAliasAllowsToBeLinkedEvenIfTargetIsNotVisible)
      [(c!"user/hello.cc", c!"#include \"some/lib/foo.h\"")]
      c!"//user:hello")
    [(.add, [], c!"//some/lib:visible_foo_alias")] none = true := by
  decide +kernel

/-! bant/tool/dwyu_test.cc:565-590, `ConsiderUnknownVisibilityVariableToAllowPublic` -/
def filesConsiderUnknownVisibilityVariableToAllowPublic : List (Str × Str) :=
  [(c!"//lib/path",
    c!"\n" ++
    c!"cc_library(\n" ++
    c!"  name = \"foo\",\n" ++
    c!"  srcs = [\"foo.cc\"],\n" ++
    c!"  hdrs = [\"foo.h\"],\n" ++
    c!"  visibility = [ UNKNOWN_VARIABLE ],\n" ++
    c!")\n"),
   (c!"//some/path",
    c!"\n" ++
    c!"cc_library(\n" ++
    c!"  name = \"bar\",\n" ++
    c!"  srcs = [\"bar.cc\"],\n" ++
    c!")\n")]
example : has (dwyu (elaborated filesConsiderUnknownVisibilityVariableToAllowPublic)
      [(c!"some/path/bar.cc", c!"\n#include \"lib/path/foo.h\"\n")]
      c!"//some/path:bar")
    [(.add, [], c!"//lib/path:foo")] none = true := by
  decide +kernel

/-! bant/tool/dwyu_test.cc:592-614, `Add_AlwaysConsiderLocalPackagesVisible` -/
def filesAddAlwaysConsiderLocalPackagesVisible : List (Str × Str) :=
  [(c!"//lib/path",
    c!"\n" ++
    c!"cc_library(\n" ++
    c!"  name = \"foo\",\n" ++
    c!"  srcs = [\"foo.cc\"],\n" ++
    c!"  hdrs = [\"foo.h\"],\n" ++
    c!"  visibility = [\"//some/package:__pkg__\"],   # but we should still see locally\n" ++
    c!")\n" ++
    c!"\n" ++
    c!"cc_library(\n" ++
    c!"  name = \"bar\",\n" ++
    c!"  srcs = [\"bar.cc\"],\n" ++
    c!")\n")]
example : has (dwyu (project filesAddAlwaysConsiderLocalPackagesVisible)
      [(c!"lib/path/bar.cc", c!"\n#include \"lib/path/foo.h\"\n")]
      c!"//lib/path:bar")
    [(.add, [], c!":foo")] none = true := by
  decide +kernel

/-! bant/tool/dwyu_test.cc:616-644, `DoNotAdd_IfNotVisibleDueToDefaultVisibility` -/
def filesDoNotAddIfNotVisibleDueToDefaultVisibility : List (Str × Str) :=
  [(c!"//lib/path",
    c!"\n" ++
    c!"package(\n" ++
    c!"  default_visibility = [\"//visibility:private\"],  # :foo will inherit that\n" ++
    c!")\n" ++
    c!"\n" ++
    c!"cc_library(\n" ++
    c!"  name = \"foo\",\n" ++
    c!"  srcs = [\"foo.cc\"],\n" ++
    c!"  hdrs = [\"foo.h\"],\n" ++
    c!")\n"),
   (c!"//some/path",
    c!"\n" ++
    c!"cc_library(\n" ++
    c!"  name = \"bar\",\n" ++
    c!"  srcs = [\"bar.cc\"],\n" ++
    c!"  # needed //lib/path:foo dependency not given, but it is private\n" ++
    c!")\n")]
example : has (dwyu (project filesDoNotAddIfNotVisibleDueToDefaultVisibility)
      [(c!"some/path/bar.cc", c!"\n#include \"lib/path/foo.h\"\n")]
      c!"//some/path:bar")
    [] none = true := by
  decide +kernel

/-! bant/tool/dwyu_test.cc:646-672, `DoNotAdd_IfTestonlyMismatch` -/
def filesDoNotAddIfTestonlyMismatch : List (Str × Str) :=
  [(c!"//lib/path",
    c!"\n" ++
    c!"cc_library(\n" ++
    c!"  name = \"foo\",\n" ++
    c!"  srcs = [\"foo.cc\"],\n" ++
    c!"  hdrs = [\"foo.h\"],\n" ++
    c!"  testonly = True,\n" ++
    c!")\n"),
   (c!"//some/path",
    c!"\n" ++
    c!"cc_library(\n" ++
    c!"  name = \"bar\",\n" ++
    c!"  srcs = [\"bar.cc\"],\n" ++
    c!"  # needed //lib/path:foo dependency not given, but it is testonly.\n" ++
    c!")\n")]
example : has (dwyu (project filesDoNotAddIfTestonlyMismatch)
      [(c!"some/path/bar.cc", c!"\n#include \"lib/path/foo.h\"\n")]
      c!"//some/path:bar")
    [] (some c!"is marked testonly") = true := by
  decide +kernel

/-! bant/tool/dwyu_test.cc:674-704, `Remove_SuperfluousDependency` -/
def filesRemoveSuperfluousDependency : List (Str × Str) :=
  [(c!"//some/path",
    c!"\n" ++
    c!"cc_library(\n" ++
    c!"  name = \"foo\",\n" ++
    c!"  srcs = [\"foo.cc\"],\n" ++
    c!"  hdrs = [\"foo.h\"],\n" ++
    c!")\n" ++
    c!"\n" ++
    c!"cc_library(\n" ++
    c!"  name = \"bar\",\n" ++
    c!"  srcs = [\"bar.cc\"],\n" ++
    c!"  hdrs = [\"bar.h\"],\n" ++
    c!")\n" ++
    c!"\n" ++
    c!"cc_library(\n" ++
    c!"  name = \"baz\",\n" ++
    c!"  srcs = [\"baz.cc\"],\n" ++
    c!"  deps = [\n" ++
    c!"    \":foo\"\n" ++
    c!"    \":bar\"  # random text dwyu that needs to contain: keep\n" ++
    c!"  ],\n" ++
    c!")\n")]
example : has (dwyu (project filesRemoveSuperfluousDependency)
      [(c!"some/path/baz.cc", c!"/* no include */")]
      c!"//some/path:baz")
    [(.remove, c!":foo", [])] none = true := by
  decide +kernel

/-! bant/tool/dwyu_test.cc:706-729, `DoNotRemove_IfThereIsAHeaderThatIsUnaccounted` -/
def filesDoNotRemoveIfThereIsAHeaderThatIsUnaccounted : List (Str × Str) :=
  [(c!"//some/path",
    c!"\n" ++
    c!"cc_library(\n" ++
    c!"  name = \"foo\",\n" ++
    c!"  srcs = [\"foo.cc\"],\n" ++
    c!"  hdrs = [\"foo.h\"],\n" ++
    c!")\n" ++
    c!"\n" ++
    c!"cc_library(\n" ++
    c!"  name = \"bar\",\n" ++
    c!"  srcs = [\"bar.cc\"],\n" ++
    c!"  deps = [\":foo\"],   # Not nominally needed, but we can't be sure to remove.\n" ++
    c!")\n")]
example : has (dwyu (project filesDoNotRemoveIfThereIsAHeaderThatIsUnaccounted)
      [(c!"some/path/bar.cc", c!"\n#include \"some/path/unaccounted-header.h\"\n")]
      c!"//some/path:bar")
    [] (some c!"unknown provider for some/path/unaccounted-header.h") = true := by
  decide +kernel

/-! bant/tool/dwyu_test.cc:731-751, `DoNotRemove_AlwayslinkDependency` -/
def filesDoNotRemoveAlwayslinkDependency : List (Str × Str) :=
  [(c!"//some/path",
    c!"\n" ++
    c!"cc_library(\n" ++
    c!"  name = \"foo\",\n" ++
    c!"  srcs = [\"foo.cc\"],\n" ++
    c!"  hdrs = [\"foo.h\"],\n" ++
    c!"  alwayslink = True\n" ++
    c!")\n" ++
    c!"\n" ++
    c!"cc_library(\n" ++
    c!"  name = \"bar\",\n" ++
    c!"  srcs = [\"bar.cc\"],\n" ++
    c!"  deps = [\":foo\"],\n" ++
    c!")\n")]
example : has (dwyu (project filesDoNotRemoveAlwayslinkDependency)
      [(c!"some/path/bar.cc", c!"/* no include */")]
      c!"//some/path:bar")
    [] none = true := by
  decide +kernel

/-! bant/tool/dwyu_test.cc:753-781, `DoNotRemove_LibraryWithoutHeaderConsideredAlwayslinkDependency` -/
def filesDoNotRemoveLibraryWithoutHeaderConsideredAlwayslinkDependency : List (Str × Str) :=
  [(c!"//some/path",
    c!"\n" ++
    c!"cc_library(\n" ++
    c!"  name = \"foo\",\n" ++
    c!"  srcs = [\"foo.cc\"],\n" ++
    c!"  # no headers exported. So if referenced, we consider it alwayslink\n" ++
    c!")\n" ++
    c!"\n" ++
    c!"cc_library(\n" ++
    c!"  name = \"bar\",\n" ++
    c!"  srcs = [\"bar.cc\"],\n" ++
    c!"  hdrs = [],   # list there, but empty.\n" ++
    c!")\n" ++
    c!"\n" ++
    c!"cc_library(\n" ++
    c!"  name = \"baz\",\n" ++
    c!"  srcs = [\"baz.cc\"],\n" ++
    c!"  deps = [\n" ++
    c!"    \":foo\",\n" ++
    c!"    \":bar\",\n" ++
    c!"  ]\n" ++
    c!")\n")]
example : has (dwyu (project filesDoNotRemoveLibraryWithoutHeaderConsideredAlwayslinkDependency)
      [(c!"some/path/baz.cc", c!"/* no include */")]
      c!"//some/path:baz")
    [] none = true := by
  decide +kernel

/-! bant/tool/dwyu_test.cc:783-808, `Add_ProtoLibraryForProtoInclude` -/
def filesAddProtoLibraryForProtoInclude : List (Str × Str) :=
  [(c!"//some/path",
    c!"\n" ++
    c!"proto_library(\n" ++
    c!"  name = \"foo_proto\",\n" ++
    c!"  srcs = [\"foo.proto\", \"baz.proto\"],\n" ++
    c!")\n" ++
    c!"\n" ++
    c!"cc_proto_library(\n" ++
    c!"  name = \"foo_proto_lib\",\n" ++
    c!"  deps = [\":foo_proto\"],\n" ++
    c!")\n" ++
    c!"\n" ++
    c!"cc_library(\n" ++
    c!"  name = \"bar\",\n" ++
    c!"  srcs = [\"bar.cc\"],\n" ++
    c!")\n")]
example : has (dwyu (project filesAddProtoLibraryForProtoInclude)
      [(c!"some/path/bar.cc", c!"\n#include \"some/path/baz.pb.h\"\n")]
      c!"//some/path:bar")
    [(.add, [], c!":foo_proto_lib")] none = true := by
  decide +kernel

/-! bant/tool/dwyu_test.cc:810-835, `Add_ProtoGrpcLibraryForProtoInclude` -/
def filesAddProtoGrpcLibraryForProtoInclude : List (Str × Str) :=
  [(c!"//some/path",
    c!"\n" ++
    c!"proto_library(\n" ++
    c!"  name = \"foo_proto\",\n" ++
    c!"  srcs = [\"foo.proto\", \"baz.proto\"],\n" ++
    c!")\n" ++
    c!"\n" ++
    c!"cc_grpc_library(              # GRPC form of a proto library.\n" ++
    c!"  name = \"grpc_foo\",\n" ++
    c!"  srcs = [\":foo_proto\"],\n" ++
    c!")\n" ++
    c!"\n" ++
    c!"cc_library(\n" ++
    c!"  name = \"bar\",\n" ++
    c!"  srcs = [\"bar.cc\"],\n" ++
    c!")\n")]
example : has (dwyu (project filesAddProtoGrpcLibraryForProtoInclude)
      [(c!"some/path/bar.cc", c!"\n#include \"some/path/baz.grpc.pb.h\"\n")]
      c!"//some/path:bar")
    [(.add, [], c!":grpc_foo")] none = true := by
  decide +kernel

/-! bant/tool/dwyu_test.cc:837-861, `Remove_UnncessaryProtoLibrary` -/
def filesRemoveUnncessaryProtoLibrary : List (Str × Str) :=
  [(c!"//some/path",
    c!"\n" ++
    c!"proto_library(\n" ++
    c!"  name = \"foo_proto\",\n" ++
    c!"  srcs = [\"foo.proto\", \"baz.proto\"],\n" ++
    c!")\n" ++
    c!"\n" ++
    c!"cc_proto_library(\n" ++
    c!"  name = \"foo_proto_lib\",\n" ++
    c!"  deps = [\":foo_proto\"],\n" ++
    c!")\n" ++
    c!"\n" ++
    c!"cc_library(\n" ++
    c!"  name = \"bar\",\n" ++
    c!"  srcs = [\"bar.cc\"],\n" ++
    c!"  deps = [\":foo_proto_lib\"],\n" ++
    c!")\n")]
example : has (dwyu (project filesRemoveUnncessaryProtoLibrary)
      [(c!"some/path/bar.cc", c!"/* no include */")]
      c!"//some/path:bar")
    [(.remove, c!":foo_proto_lib", [])] none = true := by
  decide +kernel

/-! bant/tool/dwyu_test.cc:869-905, `Add_AbslStringViewWorkaround` -/
def filesAddAbslStringViewWorkaround : List (Str × Str) :=
  [(c!"//foo/absl/strings",
    c!"   # iff packages suffix is absl/strings\n" ++
    c!"cc_library(\n" ++
    c!"  name = \"string_view\",\n" ++
    c!"  hdrs = [\"string_view.h\"]  # The actual place definining header\n" ++
    c!")\n" ++
    c!"\n" ++
    c!"cc_library(\n" ++
    c!"  name = \"strings\",\n" ++
    c!"  hdrs = [\n" ++
    c!"    \"str_cat.h\",\n" ++
    c!"    \"string_view.h\"         # But also defined here\n" ++
    c!"  ],\n" ++
    c!"  textual_hdrs = [\n" ++
    c!"    \"string_view.h\"         # ... also here. This is how we detect.\n" ++
    c!"  ],\n" ++
    c!")\n" ++
    c!"\n" ++
    c!"cc_binary(\n" ++
    c!"  name = \"string-user\",\n" ++
    c!"  srcs = [\"string-user.cc\"],\n" ++
    c!"  # expecting deps added\n" ++
    c!")\n")]
example : has (dwyu (project filesAddAbslStringViewWorkaround)
      [(c!"foo/absl/strings/string-user.cc", c!"\n#include \"foo/absl/strings/str_cat.h\"\n#include \"foo/absl/strings/string_view.h\"\n")]
      c!"//foo/absl/strings:string-user")
    [(.add, [], c!":strings"), (.add, [], c!":string_view")] none = true := by
  decide +kernel

end Tools
end Tests
end Bant
