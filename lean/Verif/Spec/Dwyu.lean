import Verif.Spec.Headers
import Verif.Spec.Paths
import Verif.Spec.Targets
import Verif.Model.Dwyu

/-!
Specification of the edits that DWYU suggests (C26-C29, C58).

What counts as an include directive is the subject of C45, where a file is that of C60, who
provides a header that of C56, and what the entries of a visibility list mean that of C07.
-/
namespace Bant
namespace DwyuSpec
open Query Rules HeaderSpec

/-! ## Alternatives (C26) -/

/-- `results` is a consistent choice for the alternatives `inputs`. -/
structure Reduced (inputs results : List (List BazelTarget)) : Prop where
  nonempty : ∀ r ∈ results, r ≠ []
  disjoint : results.Pairwise fun r r' => ∀ t ∈ r, t ∉ r'
  /-- Each result is the intersection of some of the inputs. -/
  common : ∀ r ∈ results, ∃ family, family ≠ [] ∧ (∀ s ∈ family, s ∈ inputs) ∧
    ∀ t, t ∈ r ↔ ∀ s ∈ family, t ∈ s
  /-- Whatever is chosen from the results satisfies each input. -/
  covers : ∀ s ∈ inputs, ∃ r ∈ results, ∀ t ∈ r, t ∈ s

/-! ## Rules -/

/-- The rules that can be dependencies (and tests). -/
def libraries (files : List Tree) : List (BazelTarget × Result) :=
  files.flatMap fun f =>
    (rulesOf [c!"cc_library", c!"alias", c!"cc_proto_library", c!"grpc_cc_library", c!"cc_test"] f.2).flatMap
      fun r => match f.1.qualifiedTarget r.name with
        | none => []
        | some t => [(t, r)]

/-- `r` is the first rule with the name `t`. -/
def Library (files : List Tree) (t : BazelTarget) (r : Result) : Prop :=
  ∃ before after, libraries files = before ++ (t, r) :: after ∧ ∀ e ∈ before, e.1 ≠ t

/-- `r` is a rule of package `pkg` in the project, with sources, and with name `t`. -/
def Rule (files : List Tree) (pkg : BazelPackage) (r : Result) (t : BazelTarget) : Prop :=
  ∃ ast, (pkg, ast) ∈ files ∧ r ∈ rulesOf [c!"cc_library", c!"cc_binary", c!"cc_test"] ast ∧
    pkg.qualifiedTarget r.name = some t

/-! ## Visibility (C29) -/

/-- Some entry of a visibility list of a library in `package` can be understood. -/
def Understood (package : BazelPackage) (entries : List Node) : Prop :=
  ∃ e ∈ entries, ∃ s, text e = some s ∧ ∃ vis, BazelPattern.parseVisibility globCompile s package = some vis

/-- Some entry matches the target. -/
def Granted (package : BazelPackage) (entries : List Node) (target : BazelTarget) : Prop :=
  ∃ e ∈ entries, ∃ s, text e = some s ∧ ∃ vis, BazelPattern.parseVisibility globCompile s package = some vis ∧
    vis.matchTarget target = true

/-- What is taken for visible: libraries without deprecation that are in the same package, or
that are not called `protobuf_headers` and have no visibility list, one without any entry that
is understood, or one with an entry that matches. -/
def Visible (files : List Tree) (target dep : BazelTarget) : Prop :=
  ∀ r, Library files dep r → r.deprecation = [] ∧ (target.package = dep.package ∨
    dep.name ≠ c!"protobuf_headers" ∧
      ∀ l, r.visibility = some l → ¬ Understood dep.package l.2 ∨ Granted dep.package l.2 target)

/-- Entries of the documented forms, and what they mean for a library in `package`. -/
inductive Grants (package : BazelPackage) : Str → (BazelTarget → Prop) → Prop
  | everyone : Grants package c!"//visibility:public" fun _ => True
  | nobody : Grants package c!"//visibility:private" fun t => t.package = package
  | package {p} : Spec.WfPackage p → Grants package (p.toString ++ c!":__pkg__") fun t =>
      t.package.path = p.path ∧
        t.package.project = if p.project = [] then package.project else p.project
  | below {p} : Spec.WfPackage p → Grants package (p.toString ++ c!":__subpackages__") fun t =>
      (p.path = [] ∨ t.package.path = p.path ∨ p.path ++ c!"/" <+: t.package.path) ∧
        t.package.project = if p.project = [] then package.project else p.project
  | here : Grants package c!":__pkg__" fun t => t.package = package
  | belowHere : Grants package c!":__subpackages__" fun t =>
      (package.path = [] ∨ t.package.path = package.path ∨ package.path ++ c!"/" <+: t.package.path) ∧
        t.package.project = package.project
  /-- Package groups are not known. -/
  | group {s} : s ≠ c!"//visibility:private" → ¬ c!"..." <:+ s → ¬ c!"__" <:+ s →
      Grants package s fun _ => True

/-! ## Sources -/

/-- The sources of a rule. -/
def sourcesOf (r : Result) : List Str := stringsOf r.srcs ++ stringsOf r.hdrs

/-- Where files are looked for: where they are, or where generated ones are. -/
def directories : List Str :=
  [c!"", c!"bazel-out/host/bin/", c!"bazel-bin/", c!"bazel-genfiles/"]

/-- The content of a file: of the first one that can be read. -/
def Content (env : Dwyu.Env) (pkg : BazelPackage) (src content : Str) : Prop :=
  ∃ before dir after, directories = before ++ dir :: after ∧
    env.read (dir ++ pkg.fullyQualifiedFile env.workspace src) = some content ∧
    ∀ d ∈ before, env.read (d ++ pkg.fullyQualifiedFile env.workspace src) = none

/-- The header `inc` is included by a source, and is not one of the sources itself. -/
def Needs (env : Dwyu.Env) (pkg : BazelPackage) (target : BazelTarget) (r : Result) (inc : Str) : Prop :=
  (∃ src ∈ sourcesOf r, ∃ content, Content env pkg src content ∧
    ∃ pos, (pos, inc) ∈ Includes.extract content) ∧
  ∀ src ∈ sourcesOf r, inc ≠ src ∧ inc ≠ target.package.path ++ c!"/" ++ src ∧ inc ≠ c!"/" ++ src

/-- `found` is the path in the index of headers that is as similar as possible to `path`. -/
def Nearest (files : List Tree) (path found : Str) : Prop :=
  (∃ t, Provides files found t) ∧
  (found = path ∨
    (∀ t, ¬ Provides files path t) ∧ 2 ≤ Paths.sharedEnd path found ∧
      ∀ p t, Provides files p t → Paths.sharedEnd path p ≤ Paths.sharedEnd path found)

/-- The included header is taken for `found`: directly, or if there is nothing similar, seen
from the package. -/
def FoundAs (files : List Tree) (pkg : BazelPackage) (inc found : Str) : Prop :=
  Nearest files inc found ∨ (∀ p, ¬ Nearest files inc p) ∧ Nearest files (pkg.qualifiedFile inc) found

/-- All sources can be read and all headers are found. -/
def Accounted (files : List Tree) (env : Dwyu.Env) (pkg : BazelPackage) (target : BazelTarget)
    (r : Result) : Prop :=
  (∀ src ∈ sourcesOf r, ∃ content, Content env pkg src content) ∧
  ∀ inc, Needs env pkg target r inc → ∃ found, FoundAs files pkg inc found

/-! ## Edits -/

/-- A comment with the word `keep`. -/
def KeepComment (line : Str) : Prop :=
  ∃ a b c, line = a ++ c!"#" ++ b ++ c!"keep" ++ c ∧ '\n' ∉ b

/-- What is taken for compatible: a library that is `testonly` can only be used by others of the
kind, and by tests; but anything can be used by rules that are not among the `libraries`. -/
def TestonlyOk (files : List Tree) (target dep : BazelTarget) : Prop :=
  ∀ r, Library files dep r → r.testonly = true →
    ∀ s, Library files target s → s.testonly = true ∨ s.rule = c!"cc_test"

/-- `t` is a dependency of the rule. -/
def DependsOn (target : BazelTarget) (r : Result) (t : BazelTarget) : Prop :=
  ∃ dep ∈ stringsOf r.deps, BazelTarget.parseFrom dep target.package = some t

/-- `sets` are the alternatives for the included headers `Inc`: for each header the libraries that
provide it and are visible. There are none for headers that are not found, or that no visible
library provides. -/
structure Alternatives (files : List Tree) (pkg : BazelPackage) (target : BazelTarget) (Inc : Str → Prop)
    (sets : List (List BazelTarget)) : Prop where
  from_inc : ∀ s ∈ sets, s ≠ [] ∧ s.Nodup ∧ ∃ inc found, Inc inc ∧ FoundAs files pkg inc found ∧
    ∀ t, t ∈ s ↔ Provides files found t ∧ Visible files target t
  for_inc : ∀ inc, Inc inc → (∀ found, ¬ FoundAs files pkg inc found) ∨
    ∃ found, FoundAs files pkg inc found ∧ ((∀ t, Provides files found t → ¬ Visible files target t) ∨
      ∃ s ∈ sets, ∀ t, t ∈ s ↔ Provides files found t ∧ Visible files target t)

/-- `edits` are what is to be suggested for a rule: `needed` is a consistent choice for the
alternatives `sets`, the dependencies in `removed` are not needed, the libraries `libs` are
missing. -/
structure Account (files : List Tree) (env : Dwyu.Env) (pkg : BazelPackage) (r : Result) (target : BazelTarget)
    (edits : List Edit) (sets needed : List (List BazelTarget)) (removed : List Str)
    (libs : List BazelTarget) : Prop where
  emitted : edits = (removed.map fun dep => ⟨.remove, target, dep, []⟩) ++
    libs.map fun t => ⟨.add, target, [], t.toStringRelativeTo target.package⟩
  alternatives : Alternatives files pkg target (Needs env pkg target r) sets
  reduced : Reduced sets needed
  distinct : ∀ s ∈ needed, s.Nodup
  order : removed.Sublist (stringsOf r.deps)
  removed_iff : ∀ dep, dep ∈ removed ↔ ∃ n t, (stringsOf r.deps)[n]? = some dep ∧
    BazelTarget.parseFrom dep target.package = some t ∧ Accounted files env pkg target r ∧
    (∃ l, Library files t l ∧ l.alwayslink = false) ∧
    (env.ignoreKeep = true ∨ ¬ KeepComment (env.line r target n)) ∧ ∀ s ∈ needed, t ∉ s
  libs_iff : ∀ t, t ∈ libs ↔ [t] ∈ needed ∧ ¬ DependsOn target r t ∧ Visible files target t ∧
    TestonlyOk files target t
  once : libs.Nodup

/-- The rules that are looked at, in order. -/
def selected (files : List Tree) (pattern : BazelPattern) : List (BazelPackage × Result × BazelTarget) :=
  files.flatMap fun f => (rulesOf [c!"cc_library", c!"cc_binary", c!"cc_test"] f.2).flatMap fun r =>
    match f.1.qualifiedTarget r.name with
    | none => []
    | some t => if pattern.matchTarget t then [(f.1, r, t)] else []

end DwyuSpec
end Bant
