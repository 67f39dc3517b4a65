import Verif.Model.TargetGlob

/-
The unit tests of bant/types-bazel_test.cc, on the model: evidence that the model is a model of
this code. (Nothing is proved for all inputs here.)
-/
namespace Bant
namespace Tests
namespace TypesBazel

def package (s : Str) : Option BazelPackage := BazelPackage.parseFrom s
def target (s : Str) : Option BazelTarget := BazelTarget.parseFrom s ⟨[], []⟩
def pattern (s : Str) : Option BazelPattern := BazelPattern.parse globCompile s
def visibility (s : Str) (p : BazelPackage) : Option BazelPattern :=
  BazelPattern.parseVisibility globCompile s p

/-! bant/types-bazel_test.cc:61-119, `ParsePackage` -/
example : package c!"nodelimiter" = some ⟨c!"", c!"nodelimiter"⟩ := by decide +kernel
example : package c!"@foo" = some ⟨c!"@foo", c!""⟩ := by decide +kernel
example : package c!"//foo/bar" = some ⟨c!"", c!"foo/bar"⟩ := by decide +kernel
example : package c!"//foo/bar/" = some ⟨c!"", c!"foo/bar"⟩ := by decide +kernel
example : package c!"//foo/bar:targetignored" = some ⟨c!"", c!"foo/bar"⟩ := by decide +kernel
example : package c!"@foo//bar/baz" = some ⟨c!"@foo", c!"bar/baz"⟩ := by decide +kernel
example : package c!"@foo/bar/baz" = some ⟨c!"@foo", c!"bar/baz"⟩ := by decide +kernel
example : package c!"@//bar/baz" = some ⟨c!"", c!"bar/baz"⟩ := by decide +kernel
example : package c!"@foo/bar//baz" = none := by decide +kernel
example : package c!"@foo/bar/baz//abc" = none := by decide +kernel

/-! bant/types-bazel_test.cc:122-136, `ParsePattern` -/
example : BazelTarget.parseFrom c!"//..." ⟨c!"", c!""⟩ = some ⟨⟨c!"", c!"..."⟩, c!"..."⟩ := by
  decide +kernel
example : BazelTarget.parseFrom c!"//foo:bar" ⟨c!"", c!""⟩ = some ⟨⟨c!"", c!"foo"⟩, c!"bar"⟩ := by
  decide +kernel

/-! bant/types-bazel_test.cc:138-151, `PrintPackage` -/
example : BazelPackage.toString ⟨c!"", c!"foo/bar/baz"⟩ = c!"//foo/bar/baz" := by decide +kernel
example : BazelPackage.toString ⟨c!"@absl", c!"foo/bar/baz"⟩ = c!"@absl//foo/bar/baz" := by decide +kernel
example : BazelPackage.toString ⟨c!"@foo", c!""⟩ = c!"@foo//" := by decide +kernel

/-! bant/types-bazel_test.cc:153-212, `ParseTarget` -/
example : BazelTarget.parseFrom c!":target" ⟨c!"", c!"foo/bar"⟩ = some ⟨⟨c!"", c!"foo/bar"⟩, c!"target"⟩ := by
  decide +kernel
example : BazelTarget.parseFrom c!"target" ⟨c!"", c!"foo/bar"⟩ = some ⟨⟨c!"", c!"foo/bar"⟩, c!"target"⟩ := by
  decide +kernel
example : BazelTarget.parseFrom c!"//baz" ⟨c!"", c!"foo/bar"⟩ = some ⟨⟨c!"", c!"baz"⟩, c!"baz"⟩ := by
  decide +kernel
example : BazelTarget.parseFrom c!"//baz/" ⟨c!"", c!"foo/bar"⟩ = some ⟨⟨c!"", c!"baz"⟩, c!""⟩ := by
  decide +kernel
example : BazelTarget.parseFrom c!"@foo" ⟨c!"", c!"foo/bar"⟩ = some ⟨⟨c!"@foo", c!""⟩, c!"foo"⟩ := by
  decide +kernel
example : BazelTarget.parseFrom c!"//other/path:target" ⟨c!"", c!"foo/bar"⟩ = some ⟨⟨c!"", c!"other/path"⟩, c!"target"⟩ := by
  decide +kernel
example : BazelTarget.parseFrom c!"//some/path/toplevel" ⟨c!"", c!"foo/bar"⟩ = some ⟨⟨c!"", c!"some/path/toplevel"⟩, c!"toplevel"⟩ := by
  decide +kernel
example : BazelTarget.parseFrom c!"@absl//absl/strings:strings" ⟨c!"", c!"foo/bar"⟩ = some ⟨⟨c!"@absl", c!"absl/strings"⟩, c!"strings"⟩ := by
  decide +kernel
example : BazelTarget.parseFrom c!"@absl//absl/strings" ⟨c!"", c!"foo/bar"⟩ = some ⟨⟨c!"@absl", c!"absl/strings"⟩, c!"strings"⟩ := by
  decide +kernel
example : BazelTarget.parseFrom c!"//absl/strings:strings" ⟨c!"@absl", c!"foo/bar"⟩ = some ⟨⟨c!"@absl", c!"absl/strings"⟩, c!"strings"⟩ := by
  decide +kernel
example : BazelTarget.parseFrom c!"//absl/strings" ⟨c!"@absl", c!"foo/bar"⟩ = some ⟨⟨c!"@absl", c!"absl/strings"⟩, c!"strings"⟩ := by
  decide +kernel

/-! bant/types-bazel_test.cc:214-218, `QualifiedFile` -/
example : BazelPackage.qualifiedFile ⟨c!"", c!"bar/baz"⟩ c!"quux.cc" = c!"bar/baz/quux.cc" := by decide +kernel
example : BazelPackage.qualifiedFile ⟨c!"", c!"bar/baz"⟩ c!":quux.cc" = c!"bar/baz/quux.cc" := by decide +kernel

/-! bant/types-bazel_test.cc:220-243, `PrintTarget` -/
example : (BazelTarget.parseFrom c!"some-lib" ⟨c!"", c!"foo/bar/baz"⟩).map (·.toString) = some c!"//foo/bar/baz:some-lib" := by
  decide +kernel
example : (BazelTarget.parseFrom c!"some-lib" ⟨c!"", c!"foo/bar/baz"⟩).map (·.toStringRelativeTo ⟨c!"", c!"foo/bar/baz"⟩)
    = some c!":some-lib" := by decide +kernel
example : (BazelTarget.parseFrom c!"some-lib" ⟨c!"", c!"foo/bar/baz"⟩).map (·.toStringRelativeTo ⟨c!"", c!"other/path"⟩)
    = some c!"//foo/bar/baz:some-lib" := by decide +kernel
example : (BazelTarget.parseFrom c!"baz" ⟨c!"", c!"foo/bar/baz"⟩).map (·.toString) = some c!"//foo/bar/baz" := by
  decide +kernel
example : (BazelTarget.parseFrom c!"baz" ⟨c!"", c!"foo/bar/baz"⟩).map (·.toStringRelativeTo ⟨c!"", c!"foo/bar/baz"⟩)
    = some c!":baz" := by decide +kernel
example : (BazelTarget.parseFrom c!"baz" ⟨c!"", c!"foo/bar/baz"⟩).map (·.toStringRelativeTo ⟨c!"", c!"other/path"⟩)
    = some c!"//foo/bar/baz" := by decide +kernel
example : (BazelTarget.parseFrom c!"foo" ⟨c!"@project", c!""⟩).map (·.toString) = some c!"@project//:foo" := by
  decide +kernel
example : (BazelTarget.parseFrom c!"foo" ⟨c!"@project", c!""⟩).map (·.toStringRelativeTo ⟨c!"@project", c!""⟩)
    = some c!":foo" := by decide +kernel
example : (BazelTarget.parseFrom c!"project" ⟨c!"@project", c!""⟩).map (·.toString) = some c!"@project" := by
  decide +kernel
example : (BazelTarget.parseFrom c!"project" ⟨c!"@project", c!""⟩).map (·.toStringRelativeTo ⟨c!"@project", c!""⟩)
    = some c!":project" := by decide +kernel

/-! bant/types-bazel_test.cc:246-261, `ParseRePrint` -/
example : (BazelTarget.parseFrom c!"//foo/bar:baz" ⟨c!"", c!"foo"⟩).map (·.toString) = some c!"//foo/bar:baz" := by
  decide +kernel
example : (BazelTarget.parseFrom c!"//foo" ⟨c!"", c!"foo"⟩).map (·.toString) = some c!"//foo" := by
  decide +kernel
example : (BazelTarget.parseFrom c!"//foo:foo" ⟨c!"", c!"foo"⟩).map (·.toString) = some c!"//foo" := by
  decide +kernel
example : (BazelTarget.parseFrom c!"@foo//:baz" ⟨c!"", c!"foo"⟩).map (·.toString) = some c!"@foo//:baz" := by
  decide +kernel
example : (BazelTarget.parseFrom c!"@foo//foo" ⟨c!"", c!"foo"⟩).map (·.toString) = some c!"@foo//foo" := by
  decide +kernel
example : (BazelTarget.parseFrom c!"@foo//:foo" ⟨c!"", c!"foo"⟩).map (·.toString) = some c!"@foo" := by
  decide +kernel
example : (BazelTarget.parseFrom c!"//bar" ⟨c!"", c!"foo"⟩).map (·.toString) = some c!"//bar" := by
  decide +kernel
example : (BazelTarget.parseFrom c!"//bar:bar" ⟨c!"", c!"foo"⟩).map (·.toString) = some c!"//bar" := by
  decide +kernel
example : (BazelTarget.parseFrom c!"@foo//bar" ⟨c!"", c!"foo"⟩).map (·.toString) = some c!"@foo//bar" := by
  decide +kernel
example : (BazelTarget.parseFrom c!"@foo//bar:bar" ⟨c!"", c!"foo"⟩).map (·.toString) = some c!"@foo//bar" := by
  decide +kernel

/-! bant/types-bazel_test.cc:263-275, `CheckRecursivePatterns` -/
example : (pattern c!"//...").map (·.isRecursive) = some true := by decide +kernel
example : (pattern c!"...").map (·.isRecursive) = some true := by decide +kernel
example : (pattern c!"foo/bar/...").map (·.isRecursive) = some true := by decide +kernel
example : (pattern c!"//foo/bar/...").map (·.isRecursive) = some true := by decide +kernel
example : (pattern c!"foo/bar/..").map (·.isRecursive) = some false := by decide +kernel
example : (pattern c!"foo/bar:all").map (·.isRecursive) = some false := by decide +kernel
example : (pattern c!"foo/bar:__pkg__").map (·.isRecursive) = some false := by decide +kernel
example : (pattern c!"foo/bar:__subpackages__").map (·.isRecursive) = some true := by decide +kernel

/-! bant/types-bazel_test.cc:277-285, `CheckPatternPaths` -/
example : (pattern c!"//...").map (·.pattern.package.path) = some c!"" := by decide +kernel
example : (pattern c!"...").map (·.pattern.package.path) = some c!"" := by decide +kernel
example : (pattern c!"//foo/bar/...").map (·.pattern.package.path) = some c!"foo/bar" := by decide +kernel
example : (pattern c!"foo/bar/...").map (·.pattern.package.path) = some c!"foo/bar" := by decide +kernel
example : (pattern c!"foo/bar:all").map (·.pattern.package.path) = some c!"foo/bar" := by decide +kernel
example : (pattern c!"foo/bar:__pkg__").map (·.pattern.package.path) = some c!"foo/bar" := by decide +kernel
example : (pattern c!"foo/bar:__subpackages__").map (·.pattern.package.path) = some c!"foo/bar" := by decide +kernel

/-! bant/types-bazel_test.cc:287-309, `CheckPatternPackageMatch` -/
example : (pattern c!"...").bind (fun p => (package c!"//foo").map p.matchPackage) = some true := by
  decide +kernel
example : (pattern c!"...").bind (fun p => (package c!"//foo:bar").map p.matchPackage) = some true := by
  decide +kernel
example : (pattern c!"...").bind (fun p => (package c!"//foo/bar:baz").map p.matchPackage) = some true := by
  decide +kernel
example : (pattern c!"...").bind (fun p => (package c!"@quux//foo/bar:baz").map p.matchPackage) = some false := by
  decide +kernel
example : (pattern c!"//...").bind (fun p => (package c!"//foo:bar").map p.matchPackage) = some true := by
  decide +kernel
example : (pattern c!"//foo/...").bind (fun p => (package c!"//foo").map p.matchPackage) = some true := by
  decide +kernel
example : (pattern c!"//foo/...").bind (fun p => (package c!"//foo/bar").map p.matchPackage) = some true := by
  decide +kernel
example : (pattern c!"//foo/...").bind (fun p => (package c!"//foobar").map p.matchPackage) = some false := by
  decide +kernel
example : (pattern c!"//foo:__subpackages__").bind (fun p => (package c!"//foo/bar").map p.matchPackage) = some true := by
  decide +kernel
example : (pattern c!"//foo:__subpackages__").bind (fun p => (package c!"//baz").map p.matchPackage) = some false := by
  decide +kernel
example : (pattern c!"@x//foo/...").bind (fun p => (package c!"//foo").map p.matchPackage) = some false := by
  decide +kernel
example : (pattern c!"//foo/...").bind (fun p => (package c!"@x//foo").map p.matchPackage) = some false := by
  decide +kernel
example : (pattern c!"//foo:all").bind (fun p => (package c!"//foo").map p.matchPackage) = some true := by
  decide +kernel
example : (pattern c!"//foo:all").bind (fun p => (package c!"//foo/bar").map p.matchPackage) = some false := by
  decide +kernel

/-! bant/types-bazel_test.cc:311-358, `CheckPatternTargetMatch` -/
example : (pattern c!"//foo/...").bind (fun p => (target c!"//foo:bar").map p.matchTarget) = some true := by
  decide +kernel
example : (pattern c!"//foo/...").bind (fun p => (target c!"@foo//foo:bar").map p.matchTarget) = some false := by
  decide +kernel
example : (pattern c!"//foo/...").bind (fun p => (target c!"//foo/bar:baz").map p.matchTarget) = some true := by
  decide +kernel
example : (pattern c!"//foo/...").bind (fun p => (target c!"//foo").map p.matchTarget) = some true := by
  decide +kernel
example : (pattern c!"//foo/...").bind (fun p => (target c!"//fo").map p.matchTarget) = some false := by
  decide +kernel
example : (pattern c!"//foo").bind (fun p => (target c!"//foo").map p.matchTarget) = some true := by
  decide +kernel
example : (pattern c!"//foo/...").bind (fun p => (target c!"//foo/").map p.matchTarget) = some true := by
  decide +kernel
example : (pattern c!"//foo:all").bind (fun p => (target c!"//foo:bar").map p.matchTarget) = some true := by
  decide +kernel
example : (pattern c!"//foo:all").bind (fun p => (target c!"//foo:baz").map p.matchTarget) = some true := by
  decide +kernel
example : (pattern c!"//foo:*").bind (fun p => (target c!"//foo:baz").map p.matchTarget) = some true := by
  decide +kernel
example : (pattern c!"//foo:__pkg__").bind (fun p => (target c!"//foo:baz").map p.matchTarget) = some true := by
  decide +kernel
example : (pattern c!"//foo:bar").bind (fun p => (target c!"//foo:bar").map p.matchTarget) = some true := by
  decide +kernel
example : (pattern c!"//foo:bar").bind (fun p => (target c!"//foo:baz").map p.matchTarget) = some false := by
  decide +kernel
example : (pattern c!"//foo:*bar").bind (fun p => (target c!"//foo:bar").map p.matchTarget) = some true := by
  decide +kernel
example : (pattern c!"//foo:*bar").bind (fun p => (target c!"//foo:baz").map p.matchTarget) = some false := by
  decide +kernel
example : (pattern c!"//foo:*bar").bind (fun p => (target c!"//foo:foobar").map p.matchTarget) = some true := by
  decide +kernel
example : (pattern c!"//foo:*bar").bind (fun p => (target c!"//foo:whiskybar").map p.matchTarget) = some true := by
  decide +kernel
example : (pattern c!"//foo:*bar").bind (fun p => (target c!"//foo:barquux").map p.matchTarget) = some false := by
  decide +kernel
example : (pattern c!"//foo:ba*").bind (fun p => (target c!"//foo:bar").map p.matchTarget) = some true := by
  decide +kernel
example : (pattern c!"//foo:ba*").bind (fun p => (target c!"//foo:baz").map p.matchTarget) = some true := by
  decide +kernel
example : (pattern c!"//foo:ba*").bind (fun p => (target c!"//foo:quux").map p.matchTarget) = some false := by
  decide +kernel
example : (pattern c!"//foo:b*r").bind (fun p => (target c!"//foo:bar").map p.matchTarget) = some true := by
  decide +kernel
example : (pattern c!"//foo:b*r").bind (fun p => (target c!"//foo:bazaar").map p.matchTarget) = some true := by
  decide +kernel
example : (pattern c!"//foo:b*r").bind (fun p => (target c!"//foo:baz").map p.matchTarget) = some false := by
  decide +kernel
example : (pattern c!"//foo:b*r*k").bind (fun p => (target c!"//foo:break").map p.matchTarget) = some true := by
  decide +kernel
example : (pattern c!"//foo:b*r*k").bind (fun p => (target c!"//foo:be_right_back").map p.matchTarget) = some true := by
  decide +kernel
example : (pattern c!"//foo:b*r*k").bind (fun p => (target c!"//foo:ill_be_back").map p.matchTarget) = some false := by
  decide +kernel

/-! bant/types-bazel_test.cc:360-377, `CheckVisibilityTargetMatch` -/
example : (visibility c!"//visibility:public" ⟨c!"", c!"foo/bar"⟩).map (·.isMatchall) = some true := by decide +kernel
example : (visibility c!"//visibility:private" ⟨c!"", c!"foo/bar"⟩).map (·.isMatchall) = some false := by decide +kernel
example : (visibility c!"__subpackages__" ⟨c!"", c!"foo/bar"⟩).map (·.isMatchall) = some false := by decide +kernel
example : (visibility c!"__subpackages__" ⟨c!"", c!"foo/bar"⟩).map (·.isRecursive) = some true := by decide +kernel
example : (visibility c!"//visibility:private" ⟨c!"", c!"foo/bar"⟩).bind (fun p => (target c!"//foo/bar:baz").map p.matchTarget) = some true := by
  decide +kernel
example : (visibility c!"//visibility:private" ⟨c!"", c!"foo/bar"⟩).bind (fun p => (target c!"//foo/bar/baz:quux").map p.matchTarget) = some false := by
  decide +kernel
example : (visibility c!"__subpackages__" ⟨c!"", c!"foo/bar"⟩).bind (fun p => (target c!"//foo/bar:hello").map p.matchTarget) = some true := by
  decide +kernel
example : (visibility c!"__subpackages__" ⟨c!"", c!"foo/bar"⟩).bind (fun p => (target c!"//foo/bar/baz/and/deep/belo:hello").map p.matchTarget) = some true := by
  decide +kernel

end TypesBazel
end Tests
end Bant
