import Verif.Spec.Dwyu

/-!
Specification of what it means to carry out edits (C92-C94).

The edits are commands for the program `buildozer`; what is said about it here is taken from its
documentation.
-/
namespace Bant
namespace StableSpec
open Query Rules HeaderSpec DwyuSpec

/-- Two lists of the same length, whose elements are related in pairs. -/
inductive Pairs {α β : Type} (R : α → β → Prop) : List α → List β → Prop
  | nil : Pairs R [] []
  | cons {a b as bs} : R a b → Pairs R as bs → Pairs R (a :: as) (b :: bs)

/-- The texts of a list, with `none` for whatever else is in it. -/
def textsOf (l : Option ListRef) : Option (List (Option Str)) := l.map fun l => l.2.map text

/-- The same rule, but for `deps` (and the places where things are in the file). -/
structure SameRule (r r' : Result) : Prop where
  rule : r'.rule = r.rule
  name : r'.name = r.name
  actual : r'.actual = r.actual
  hasActual : r'.hasActual = r.hasActual
  deprecation : r'.deprecation = r.deprecation
  includePrefix : r'.includePrefix = r.includePrefix
  stripIncludePrefix : r'.stripIncludePrefix = r.stripIncludePrefix
  alwayslink : r'.alwayslink = r.alwayslink
  testonly : r'.testonly = r.testonly
  srcs : stringsOf r'.srcs = stringsOf r.srcs
  hdrs : stringsOf r'.hdrs = stringsOf r.hdrs
  textualHdrs : stringsOf r'.textualHdrs = stringsOf r.textualHdrs
  publicHdrs : stringsOf r'.publicHdrs = stringsOf r.publicHdrs
  outs : stringsOf r'.outs = stringsOf r.outs
  includes : stringsOf r'.includes = stringsOf r.includes
  visibility : textsOf r'.visibility = textsOf r.visibility

/-- `dep` is a dependency of the rule `t` once the edits are carried out; `deps` are those before. -/
def After (edits : List Edit) (t : BazelTarget) (deps : List Str) (dep : Str) : Prop :=
  (dep ∈ deps ∧ ⟨.remove, t, dep, []⟩ ∉ edits ∧ ∀ new, ⟨.rename, t, dep, new⟩ ∉ edits) ∨
  ⟨.add, t, [], dep⟩ ∈ edits ∨
  ∃ old ∈ deps, ⟨.rename, t, old, dep⟩ ∈ edits

/-- `r'` is what the edits make of the rule `r` of the package. -/
structure EditedRule (edits : List Edit) (pkg : BazelPackage) (r r' : Result) : Prop where
  same : SameRule r r'
  deps : ∀ t, pkg.qualifiedTarget r.name = some t →
    ∀ dep, dep ∈ stringsOf r'.deps ↔ After edits t (stringsOf r.deps) dep
  /-- Rules for which there is no edit are left alone. -/
  others : (∀ e ∈ edits, pkg.qualifiedTarget r.name ≠ some e.target) →
    stringsOf r'.deps = stringsOf r.deps

/-- `files'` is what the edits make of `files`. -/
def Edited (edits : List Edit) (files files' : List Tree) : Prop :=
  Pairs (fun f f' => f'.1 = f.1 ∧ Pairs (EditedRule edits f.1) (rulesOf [] f.2) (rulesOf [] f'.2)) files files'

/-- A dependency that stays has the comment that it had. -/
def SameComments (env env' : Dwyu.Env) (pkg : BazelPackage) (r r' : Result) : Prop :=
  ∀ t, pkg.qualifiedTarget r.name = some t → ∀ n dep, (stringsOf r'.deps)[n]? = some dep → dep ∈ stringsOf r.deps →
    ∃ k, (stringsOf r.deps)[k]? = some dep ∧ (KeepComment (env.line r t k) → KeepComment (env'.line r' t n))

/-- The same for all rules. -/
def CommentsStay (env env' : Dwyu.Env) (files files' : List Tree) : Prop :=
  Pairs (fun f f' => Pairs (SameComments env env' f.1) (rulesOf [] f.2) (rulesOf [] f'.2)) files files'

/-- The sources of the rules are as they were. -/
def SourcesStay (env env' : Dwyu.Env) (files : List Tree) : Prop :=
  ∀ pkg r t, Rule files pkg r t → ∀ src ∈ sourcesOf r, ∀ dir ∈ directories,
    env'.read (dir ++ pkg.fullyQualifiedFile env.workspace src) =
      env.read (dir ++ pkg.fullyQualifiedFile env.workspace src)

/-- The same rule, where dependencies may be written in another way. -/
structure SameMeaning (env env' : Dwyu.Env) (pkg : BazelPackage) (r r' : Result) : Prop where
  same : SameRule r r'
  deps : Pairs (fun d d' => BazelTarget.parseFrom d' pkg = BazelTarget.parseFrom d pkg)
    (stringsOf r.deps) (stringsOf r'.deps)
  comments : ∀ t, pkg.qualifiedTarget r.name = some t → ∀ n,
    KeepComment (env'.line r' t n) ↔ KeepComment (env.line r t n)

/-- The same files, where dependencies may be written in another way. -/
def Respelled (env env' : Dwyu.Env) (files files' : List Tree) : Prop :=
  Pairs (fun f f' => f'.1 = f.1 ∧ Pairs (SameMeaning env env' f.1) (rulesOf [] f.2) (rulesOf [] f'.2)) files files'

/-- The same edit, but for how the dependency is written that it removes. -/
structure SameEdit (e e' : Edit) : Prop where
  op : e'.op = e.op
  target : e'.target = e.target
  before : BazelTarget.parseFrom e'.before e.target.package = BazelTarget.parseFrom e.before e.target.package
  after : e'.after = e.after

/-- What Bazel asks for: each package is there once, has a name that can be written, and rules with
different names, that have no colon. -/
structure Sound (files : List Tree) : Prop where
  packages : (files.map (·.1)).Nodup
  wellFormed : ∀ f ∈ files, Spec.WfPackage f.1
  rules : ∀ f ∈ files, ((rulesOf [] f.2).filterMap fun r => f.1.qualifiedTarget r.name).Nodup
  names : ∀ f ∈ files, ∀ r ∈ rulesOf [] f.2, ∀ t, f.1.qualifiedTarget r.name = some t → ':' ∉ t.name

end StableSpec
end Bant
