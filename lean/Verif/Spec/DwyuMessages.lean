import Verif.Spec.Dwyu
import Verif.Model.DwyuMessages

/-!
Specification of what DWYU says (C105 to C107).
-/
namespace Bant
namespace DwyuSpec
open Query Rules HeaderSpec Dwyu

/-- Path, line and columns (counting from one) of the text between two offsets of the content of a file; see C51. -/
def locationIn (path content : Str) (b e : Nat) : Str :=
  let line pos := (content.take pos).count '\n'
  let col pos := ((content.take pos).reverse.takeWhile (· != '\n')).length
  path ++ c!":" ++ showRange ⟨⟨line b, col b⟩, ⟨line e, col e⟩⟩

/-- A source is read from the directory `dir`, the first one in which it is. -/
def ReadFrom (env : Env) (pkg : BazelPackage) (src dir content : Str) : Prop :=
  ∃ before after, directories = before ++ dir :: after ∧
    env.read (dir ++ pkg.fullyQualifiedFile env.workspace src) = some content ∧
    ∀ d ∈ before, env.read (d ++ pkg.fullyQualifiedFile env.workspace src) = none

/-- The n-th source of the rule is in `dir`, and includes `inc` at the location `loc`. -/
def IncludesAt (env : Env) (pkg : BazelPackage) (r : Result) (n : Nat) (dir loc inc : Str) : Prop :=
  ∃ src content pos, (sourcesOf r)[n]? = some src ∧ ReadFrom env pkg src dir content ∧
    (pos, inc) ∈ Includes.extract content ∧
    loc = locationIn (dir ++ pkg.fullyQualifiedFile env.workspace src) content pos (pos + inc.length)

/-- The first `genrule` with this output. -/
def madeBy (files : List Tree) (path : Str) : Option BazelTarget :=
  ((outputs files).find? (·.1 = path)).map (·.2)

/-- For each path, a header that is as similar as possible, if there is one that is similar. -/
structure Reading (files : List Tree) (near : Str → Option Str) : Prop where
  found : ∀ path p, near path = some p → Nearest files path p
  missing : ∀ path, near path = none → ∀ p, ¬ Nearest files path p

/-- `inc` is one of the sources of the rule, seen from the root of the project or as it is listed. -/
def Own (target : BazelTarget) (r : Result) (inc : Str) : Prop :=
  ∃ src ∈ sourcesOf r, inc = src ∨ inc = target.package.path ++ c!"/" ++ src

/-- `inc` is one of the sources of the rule, with a slash before. -/
def OwnSlash (r : Result) (inc : Str) : Prop := ∃ src ∈ sourcesOf r, inc = c!"/" ++ src

/-- The `k`-th dependency is the first one that is in `s`; it is `u`. -/
def FirstOf (target : BazelTarget) (r : Result) (s : List BazelTarget) (k : Nat) (u : BazelTarget) : Prop :=
  (∃ dep, (stringsOf r.deps)[k]? = some dep ∧ BazelTarget.parseFrom dep target.package = some u) ∧ u ∈ s ∧
  ∀ j < k, ∀ dep v, (stringsOf r.deps)[j]? = some dep → BazelTarget.parseFrom dep target.package = some v → v ∉ s

section
variable (files : List Tree) (env : Env) (talk : Talk) (near : Str → Option Str) (pkg : BazelPackage) (r : Result)
  (target : BazelTarget)

/-- Complaints about what the n-th source includes. -/
inductive Complains (n : Nat) : Message → Prop
  /-- An own header, with a slash. -/
  | own {loc inc} : IncludesAt env pkg r n [] loc inc → ¬ Own target r inc → OwnSlash r inc →
      Complains n (.relative loc inc)
  /-- A header of others that is only found relative to the package. -/
  | relative {loc inc p} : IncludesAt env pkg r n [] loc inc → ¬ Own target r inc → ¬ OwnSlash r inc →
      near inc = none → near (pkg.qualifiedFile inc) = some p → Complains n (.relative loc inc)
  /-- A header that is not found, but made by a `genrule`. -/
  | generated {dir loc inc g} : IncludesAt env pkg r n dir loc inc → ¬ Own target r inc → ¬ OwnSlash r inc →
      near inc = none → near (pkg.qualifiedFile inc) = none → madeBy files inc = some g →
      Complains n (.generated loc inc g)
  /-- A header that is not found at all: only if verbose. -/
  | unknown {dir loc inc} : 1 ≤ talk.verbose → IncludesAt env pkg r n dir loc inc → ¬ Own target r inc →
      ¬ OwnSlash r inc → near inc = none → near (pkg.qualifiedFile inc) = none → madeBy files inc = none →
      Complains n (.unknown loc inc)

/-- What is said for a rule; `needed` is the consistent choice of alternatives as in `Account`. -/
inductive Says (needed : List (List BazelTarget)) : Message → Prop
  /-- A source that can not be read. -/
  | unreadable {n src} : (sourcesOf r)[n]? = some src → (∀ c, ¬ Content env pkg src c) →
      Says needed (.unreadable (talk.places.source r target n) (pkg.fullyQualifiedFile env.workspace src) target
        (madeBy files (pkg.fullyQualifiedFile env.workspace src)))
  | complaint {n m} : Complains files env talk near pkg r target n m → Says needed m
  /-- For each source with complaints. -/
  | referenced {n src m} : (sourcesOf r)[n]? = some src → Complains files env talk near pkg r target n m →
      Says needed (.referenced (talk.places.source r target n) src target)
  /-- A header of others is found under a path of other length: if very verbose. -/
  | similar {n dir loc inc p} : 2 ≤ talk.verbose → IncludesAt env pkg r n dir loc inc → ¬ Own target r inc →
      ¬ OwnSlash r inc → near inc = some p → p.length ≠ inc.length → Says needed (.similar loc inc p)
  /-- Headers of others that are found, if very very verbose; -/
  | included {n dir loc inc p} : 3 ≤ talk.verbose → IncludesAt env pkg r n dir loc inc → ¬ Own target r inc →
      ¬ OwnSlash r inc → near inc = some p ∨ near inc = none ∧ near (pkg.qualifiedFile inc) = some p →
      Says needed (.included loc inc)
  /-- and who provides them. -/
  | provider {n dir loc inc p t visible} : 3 ≤ talk.verbose → IncludesAt env pkg r n dir loc inc →
      ¬ Own target r inc → ¬ OwnSlash r inc →
      near inc = some p ∨ near inc = none ∧ near (pkg.qualifiedFile inc) = some p →
      Provides files p t → (visible = true ↔ Visible files target t) →
      Says needed (.provider loc t visible talk.color)
  /-- A dependency that can not be understood. -/
  | invalid {n dep} : (stringsOf r.deps)[n]? = some dep → BazelTarget.parseFrom dep target.package = none →
      Says needed (.invalid (talk.places.dep r target n) dep)
  /-- A dependency that is there twice. -/
  | again {n dep t s k} : (stringsOf r.deps)[n]? = some dep → BazelTarget.parseFrom dep target.package = some t →
      s ∈ needed → FirstOf target r s k t → k < n → Says needed (.again (talk.places.dep r target n) target dep)
  /-- A dependency that another one makes superfluous. -/
  | already {n dep t s k u} : (stringsOf r.deps)[n]? = some dep → BazelTarget.parseFrom dep target.package = some t →
      s ∈ needed → t ∈ s → FirstOf target r s k u → k < n → u ≠ t →
      Says needed (.already (talk.places.dep r target n) target dep u)
  /-- A dependency that may be superfluous, but there are unknown headers: if very verbose. -/
  | unsure {n dep t} : 2 ≤ talk.verbose → (stringsOf r.deps)[n]? = some dep →
      BazelTarget.parseFrom dep target.package = some t → (∀ s ∈ needed, t ∉ s) →
      ¬ Accounted files env pkg target r → Says needed (.unsure (talk.places.dep r target n) t)
  /-- Several alternatives, and none of them is a dependency. -/
  | choices {s l : List BazelTarget} : s ∈ needed → 2 ≤ s.length → (∀ t ∈ s, ¬ DependsOn target r t) → (∀ t, t ∈ l ↔ t ∈ s) →
      l.Pairwise (fun a b => Ordered.lt a b = true) → Says needed (.choices (talk.places.name r target) target l)
  /-- A library that is missing, but for tests only. -/
  | testonly {t d} : [t] ∈ needed → ¬ DependsOn target r t → ¬ TestonlyOk files target t → Library files target d →
      Says needed (.testonly (talk.places.known target) target t)
  /-- The same once more, with another reason: if very verbose. -/
  | notVisible {t} : 2 ≤ talk.verbose → [t] ∈ needed → ¬ DependsOn target r t → ¬ TestonlyOk files target t →
      Says needed (.notVisible (talk.places.name r target) t)
end

/-- Files that are made by several `genrule`s, one of them in the main project: said for all but the first. -/
inductive SaysTwice (files : List Tree) (talk : Talk) : Message → Prop
  | mk {pkg ast r target n out other} : (pkg, ast) ∈ files → r ∈ rulesOf [c!"genrule"] ast →
      pkg.qualifiedTarget r.name = some target → (stringsOf r.outs)[n]? = some out → pkg.project = [] →
      madeBy files (pkg.qualifiedFile out) = some other → other ≠ target →
      SaysTwice files talk (.alsoCreated (talk.places.out r target n) (pkg.qualifiedFile out) target other)

end DwyuSpec
end Bant
