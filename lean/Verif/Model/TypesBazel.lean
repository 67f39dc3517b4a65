import Verif.Base.Str

/-
Model of bant/types-bazel.h and bant/types-bazel.cc.

Not modelled here: `FullyQualifiedFile` (see `Verif.Model.Workspace`), the stream
output operators (they just call `ToString`).
RE2 is a parameter (`compile`), so that results about patterns hold for every
regular expression engine; see `Verif.Model.Regex` for the concrete one.
-/
namespace Bant

/-- bant/types-bazel.h:35-63, `struct BazelPackage`. -/
structure BazelPackage where
  project : Str
  path : Str
deriving DecidableEq, Repr, Inhabited

/-- bant/types-bazel.h:69-97, `class BazelTarget`. -/
structure BazelTarget where
  package : BazelPackage
  name : Str
deriving DecidableEq, Repr, Inhabited

namespace BazelPackage

/-- bant/types-bazel.cc:36-38, `BazelPackage::ToString`. -/
def toString (p : BazelPackage) : Str := p.project ++ c!"//" ++ p.path

/-- bant/types-bazel.cc:40-46, `BazelPackage::QualifiedTarget`. -/
def qualifiedTarget (p : BazelPackage) (name : Str) : Option BazelTarget :=
  match name with
  | [] => none
  | c :: rest =>
    let n := if c = ':' then rest else name
    if n = [] then none else some ⟨p, n⟩

/-- bant/types-bazel.cc:48-54, `BazelPackage::QualifiedFile`. -/
def qualifiedFile (p : BazelPackage) (rel : Str) : Str :=
  let rel := match rel with
    | ':' :: r => r
    | r => r
  if p.path = [] then rel else p.path ++ '/' :: rel

/-- bant/types-bazel.cc:79-89: split off the project of a string without `:`. -/
def projectAndPath (str : Str) : Str × Str :=
  match str with
  | '@' :: _ =>
    let project := beforeFirst '/' str
    let path := fromFirst '/' str
    (if project = ['@'] then [] else project, path)
  | _ => ([], str)

/-- bant/types-bazel.cc:69-99, `BazelPackage::ParseFrom`. -/
def parseFrom (str : Str) : Option BazelPackage :=
  let str := beforeLast ':' str
  if str.length < 2 then none
  else
    let (project, path) := projectAndPath str
    let path := stripBack '/' (stripFront '/' path)
    if containsDouble '/' path then none
    else some ⟨beforeFirst '~' project, path⟩

/-- bant/types-bazel.cc:146-158, `PackageLastElement`. -/
def lastElement (p : BazelPackage) : Str :=
  match splitLast '/' p.path with
  | some (_, after) => after
  | none =>
    if p.path ≠ [] then p.path
    else if p.project ≠ [] then p.project.drop 1
    else []

end BazelPackage

namespace BazelTarget

/-- bant/types-bazel.cc:101-144: the part of `BazelTarget::ParseFrom` after the
package and target strings have been determined (lines 131-143). -/
def assemble (package target : Str) (context : BazelPackage) : Option BazelTarget :=
  if package = [] then some ⟨context, target⟩
  else match BazelPackage.parseFrom package with
    | none => none
    | some pp =>
      let pp := if pp.project = [] then { pp with project := context.project } else pp
      some ⟨pp, target⟩

/-- bant/types-bazel.cc:101-144, `BazelTarget::ParseFrom`. -/
def parseFrom (str : Str) (context : BazelPackage) : Option BazelTarget :=
  match splitAll ':' str with
  | [package] =>
    match splitLast '/' package with
    | some (_, target) => assemble package target context
    | none =>
      match package with
      | '@' :: target => assemble package target context
      | _ => assemble [] str context
  | [package, target] => assemble package target context
  | _ => none

/-- bant/types-bazel.cc:160-168, `BazelTarget::ToString`. -/
def toString (t : BazelTarget) : Str :=
  if t.package.lastElement = t.name then
    if t.package.path = [] then t.package.project
    else t.package.toString
  else t.package.toString ++ ':' :: t.name

/-- bant/types-bazel.cc:170-174, `BazelTarget::ToStringRelativeTo`. -/
def toStringRelativeTo (t : BazelTarget) (other : BazelPackage) : Str :=
  if other ≠ t.package then t.toString
  else ':' :: t.name

end BazelTarget

/-- bant/types-bazel.h:134-140, `BazelPattern::MatchKind`; the regular expression
is kept with the kind that uses it (in C++ it is a separate, possibly null
pointer that is only dereferenced for `kTargetRegex`). -/
inductive MatchKind where
  | exact
  | targetRegex (fullMatch : Str → Bool)
  | allTargetInPackage
  | recursive
  | alwaysMatch

/-- bant/types-bazel.h:109-149, `class BazelPattern`. -/
structure BazelPattern where
  pattern : BazelTarget
  kind : MatchKind

namespace BazelPattern

/-- bant/types-bazel.cc:176, default constructor: match everything. -/
def always : BazelPattern := ⟨⟨⟨[], []⟩, []⟩, .alwaysMatch⟩

/-- bant/types-bazel.cc:235-243: path of a `foo/...` pattern without the dots
and the slash before. -/
def stripDots (p : Str) : Str :=
  if p.length > 3 then p.take (p.length - 4) else p.take (p.length - 3)

/-- bant/types-bazel.cc:219-264, `BazelPattern::ParseFrom(pattern, context)`.
`compile` stands for `GlobbingToRE2` followed by the `ok()` test. -/
def parseFrom (compile : Str → Option (Str → Bool))
    (pattern : Str) (context : BazelPackage) : Option BazelPattern :=
  match BazelTarget.parseFrom pattern context with
  | none => none
  | some t =>
    let cleared : BazelTarget := { t with name := [] }
    if t.name = c!"__pkg__" ∨ t.name = c!"all" ∨ t.name = c!"*" then
      some ⟨cleared, .allTargetInPackage⟩
    else if t.name = c!"__subpackages__" then
      some ⟨cleared, .recursive⟩
    else if t.package.path = c!"..." ∨ endsWith t.package.path c!"/..." then
      some ⟨⟨{ t.package with path := stripDots t.package.path }, []⟩, .recursive⟩
    else if t.name = c!"..." then
      if t.package.path ≠ [] then none
      else some ⟨cleared, .recursive⟩
    else if hasChar t.name '*' then
      match compile t.name with
      | none => none
      | some re => some ⟨cleared, .targetRegex re⟩
    else some ⟨t, .exact⟩

/-- bant/types-bazel.cc:197-200, `BazelPattern::ParseFrom(pattern)`. -/
def parse (compile : Str → Option (Str → Bool)) (pattern : Str) : Option BazelPattern :=
  parseFrom compile pattern ⟨[], []⟩

/-- bant/types-bazel.cc:178-195, `BazelPattern::ParseVisibility`. -/
def parseVisibility (compile : Str → Option (Str → Bool))
    (pattern : Str) (context : BazelPackage) : Option BazelPattern :=
  if pattern = c!"//visibility:public" then some always
  else if pattern = c!"//visibility:private" then
    match BazelTarget.parseFrom [] context with
    | none => none
    | some t => some ⟨t, .allTargetInPackage⟩
  else if ¬ endsWith pattern c!"..." ∧ ¬ endsWith pattern c!"__" then some always
  else parseFrom compile pattern context

/-- bant/types-bazel.cc:292-313, `BazelPattern::Match(const BazelPackage &)`.
`to_match.at(me.length())` throws if out of range; it is only evaluated if
`to_match` starts with `me` and is longer, so `getElem?` is never `none` there. -/
def matchPackage (self : BazelPattern) (package : BazelPackage) : Bool :=
  match self.kind with
  | .alwaysMatch => true
  | .exact | .targetRegex _ | .allTargetInPackage => package == self.pattern.package
  | .recursive =>
    if package.project ≠ self.pattern.package.project then false
    else
      let me := self.pattern.package.path
      if me = [] then true
      else startsWith package.path me &&
        (me.length == package.path.length || package.path[me.length]? == some '/')

/-- bant/types-bazel.cc:272-290, `BazelPattern::Match(const BazelTarget &)`. -/
def matchTarget (self : BazelPattern) (target : BazelTarget) : Bool :=
  match self.kind with
  | .alwaysMatch => true
  | .exact => target == self.pattern
  | .targetRegex re =>
    if target.package ≠ self.pattern.package then false
    else re target.name
  | .allTargetInPackage => target.package == self.pattern.package
  | .recursive => self.matchPackage target.package

/-- bant/types-bazel.h:122-124, `is_recursive`. -/
def isRecursive (self : BazelPattern) : Bool :=
  match self.kind with
  | .recursive | .alwaysMatch => true
  | _ => false

/-- bant/types-bazel.h:125, `is_matchall`. -/
def isMatchall (self : BazelPattern) : Bool :=
  match self.kind with
  | .alwaysMatch => true
  | _ => false

end BazelPattern
end Bant
