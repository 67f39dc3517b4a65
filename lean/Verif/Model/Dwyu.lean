import Verif.Model.Headers
import Verif.Model.Includes
import Verif.Model.Workspace
import Verif.Model.TargetGlob
import Verif.Model.Edits

/-!
"Depend on what you use": bant/tool/dwyu.cc.

A `btree_set` of targets is a list without duplicates (the order only matters for messages).
Messages and statistics are not modelled. `none` is undefined behaviour or a failed `CHECK`.
-/
namespace Bant
namespace Dwyu
open Query Headers HeaderIndex

/-- What is not in the BUILD files: `read` is `ReadFileToString`, `line` is `GetSurroundingLine`
for the n-th string in `deps` of a rule (given by its target, and its attributes), `ignoreKeep` is the flag `ignore_keep_comment`. -/
structure Env where
  read : Str → Option Str
  workspace : Workspace.Map
  line : Result → BazelTarget → Nat → Str
  ignoreKeep : Bool

/-- bant/tool/dwyu.cc:51-59, `kSourceLocations`. -/
def sourceLocations : List Str :=
  [[], c!"bazel-out/host/bin/", c!"bazel-bin/", c!"bazel-genfiles/"]

/-- bant/tool/dwyu.cc:123-140, `TryOpenFile`: the content of the first file that can be read. -/
def tryOpenFile (read : Str → Option Str) (file : Str) : Option Str :=
  sourceLocations.findSome? fun searchPath => read (searchPath ++ file)

/-- bant/tool/dwyu.cc:66-79, `IsHeaderInList`. -/
def isHeaderInList (header : Str) (list : List Str) (prefixPath : Str) : Bool :=
  list.any fun item =>
    endsWith header item && (header = item || prefixPath ++ '/' :: item = header)

/-- bant/tool/dwyu.cc:81-88 -/
def intersect (a b : List BazelTarget) : List BazelTarget := a.filter (· ∈ b)

/-- `std::set::insert` -/
def insertIndex (i : Nat) (s : List Nat) : List Nat := if i ∈ s then s else i :: s

/-- bant/tool/dwyu.cc:108-113: the inner loop, from index `j` on. -/
def absorb (current : List BazelTarget) (covered : List Nat) (j : Nat) :
    List (List BazelTarget) → List BazelTarget × List Nat
  | [] => (current, covered)
  | s :: rest =>
    if (intersect current s).isEmpty then absorb current covered (j + 1) rest
    else absorb (intersect current s) (insertIndex j covered) (j + 1) rest

/-- bant/tool/dwyu.cc:104-116: the outer loop, from index `i` on. -/
def minimizeFrom (covered : List Nat) (i : Nat) :
    List (List BazelTarget) → Option (List (List BazelTarget) × List Nat)
  | [] => some ([], covered)
  | s :: rest =>
    if i ∈ covered then minimizeFrom covered (i + 1) rest
    else
      let (current, covered) := absorb s (insertIndex i covered) (i + 1) rest
      if current.isEmpty then none
      else (minimizeFrom covered (i + 1) rest).map fun r => (current :: r.1, r.2)

/-- bant/tool/dwyu.cc:94-119, `MinimizeDependencySet`. -/
def minimizeDependencySet (sets : List (List BazelTarget)) : Option (List (List BazelTarget)) :=
  match minimizeFrom [] 0 sets with
  | none => none
  | some (result, covered) => if covered.length = sets.length then some result else none

/-- bant/tool/dwyu.cc:145-161, `InitKnownLibraries`: what is inserted. -/
def knownAdds (files : Files) : Option (List (BazelTarget × Result)) :=
  mapAll (fun f =>
      forTargets f.2 [c!"cc_library", c!"alias", c!"cc_proto_library", c!"grpc_cc_library", c!"cc_test"]
        fun r =>
          match f.1.qualifiedTarget r.name with
          | none => some []
          | some self => some [(self, r)])
    files

/-- bant/tool/dwyu-internal.h:86-87: the index of headers and `known_libs_`. The third member
is for messages only. -/
structure Generator where
  headers : StrMap (List BazelTarget)
  known : List (BazelTarget × Result)

/-- bant/tool/dwyu.cc:560-573, constructor. -/
def Generator.create (files : Files) : Option Generator :=
  match extractHeaderToLibMapping files, extractGeneratedFromGenrule files, knownAdds files with
  | some headers, some _, some known => some ⟨headers, insertAll [] known⟩
  | _, _, _ => none

/-- bant/tool/dwyu.cc:163-168 -/
def isAlwayslink (gen : Generator) (target : BazelTarget) : Bool :=
  match lookup gen.known target with
  | none => true
  | some r => r.alwayslink

/-- bant/tool/dwyu.cc:170-194 -/
def isTestonlyCompatible (gen : Generator) (target dep : BazelTarget) : Bool :=
  match lookup gen.known dep with
  | none => true
  | some depDetail =>
    if !depDetail.testonly then true
    else
      match lookup gen.known target with
      | none => true
      | some targetDetail => targetDetail.testonly || targetDetail.rule = c!"cc_test"

/-- bant/tool/dwyu.cc:220-235: the loop over the visibility list. -/
def visibleFrom (target : BazelTarget) (package : BazelPackage) (anyValid : Bool) :
    List Node → Option Bool
  | [] => some (!anyValid)
  | entry :: rest =>
    let string (str : Str) : Option Bool :=
      match BazelPattern.parseVisibility globCompile str package with
      | none => visibleFrom target package anyValid rest
      | some vis => if vis.matchTarget target then some true else visibleFrom target package true rest
    match entry with
    | .null => none
    | .str t _ _ => string t
    | .int rep _ => string rep
    | _ => visibleFrom target package anyValid rest

/-- bant/tool/dwyu.cc:197-236 -/
def canSee (gen : Generator) (target dep : BazelTarget) : Option Bool :=
  match lookup gen.known dep with
  | none => some true
  | some r =>
    if r.deprecation ≠ [] then some false
    else if target.package = dep.package then some true
    else if dep.name = c!"protobuf_headers" then some false
    else
      match r.visibility with
      | none => some true
      | some l => visibleFrom target dep.package false l.2

/-- bant/tool/dwyu.cc:271-284: the visible ones of some alternatives. -/
def visibleOf (gen : Generator) (target : BazelTarget) : List BazelTarget → Option (List BazelTarget)
  | [] => some []
  | t :: ts =>
    match canSee gen target t with
    | none => none
    | some see => (visibleOf gen target ts).map fun vs => if see then t :: vs else vs

/-- bant/tool/dwyu.cc:341-374: the targets that provide an included file; the inner `none`: not
known. -/
def providers (gen : Generator) (package : BazelPackage) (inc : Str) :
    Option (Option (List BazelTarget)) :=
  match findBySuffix gen.headers inc 2 with
  | none => none
  | some (some found) => some (some found.targets)
  | some none =>
    match findBySuffix gen.headers (package.qualifiedFile inc) 2 with
    | none => none
    | some (some found) => some (some found.targets)
    | some none => some none

/-- bant/tool/dwyu.cc:324-405: the included files of one source: alternatives, and whether all
of them are accounted for. -/
def neededByIncludes (gen : Generator) (target : BazelTarget) (package : BazelPackage)
    (sources : List Str) : List Str → Option (List (List BazelTarget) × Bool)
  | [] => some ([], true)
  | inc :: rest =>
    match neededByIncludes gen target package sources rest with
    | none => none
    | some (sets, accounted) =>
      if isHeaderInList inc sources target.package.path || isHeaderInList inc sources [] then
        some (sets, accounted)
      else
        match providers gen package inc with
        | none => none
        | some none => some (sets, false)
        | some (some alternatives) =>
          match visibleOf gen target alternatives with
          | none => none
          | some visible => some (if visible.isEmpty then sets else visible :: sets, accounted)

/-- bant/tool/dwyu.cc:239-418, `DependenciesNeededBySources`; the last argument are the sources
still to be looked at. -/
def neededBySources (env : Env) (gen : Generator) (target : BazelTarget) (package : BazelPackage)
    (sources : List Str) : List Str → Option (List (List BazelTarget) × Bool)
  | [] => some ([], true)
  | src :: rest =>
    match neededBySources env gen target package sources rest with
    | none => none
    | some (sets, accounted) =>
      match tryOpenFile env.read (package.fullyQualifiedFile env.workspace src) with
      | none => some (sets, false)
      | some content =>
        match neededByIncludes gen target package sources ((Includes.extract content).map (·.2)) with
        | none => none
        | some (more, all) => some (more ++ sets, all && accounted)

/-- `.*keep` at the begin of a string. -/
def keepFollows : Str → Bool
  | [] => false
  | c :: cs => startsWith (c :: cs) c!"keep" || (c ≠ '\n' && keepFollows cs)

/-- bant/tool/dwyu.cc:490-493: `#.*keep` somewhere in a string. -/
def hasKeepComment : Str → Bool
  | [] => false
  | c :: cs => (c = '#' && keepFollows cs) || hasKeepComment cs

/-- bant/tool/dwyu.cc:437-448, `IsNeededInSourcesAndCheckOff`: the first set with the target, and
the others. -/
def checkOff (t : BazelTarget) : List (List BazelTarget) → Option (List BazelTarget × List (List BazelTarget))
  | [] => none
  | s :: rest =>
    if t ∈ s then some (s, rest) else (checkOff t rest).map fun r => (r.1, s :: r.2)

/-- bant/tool/dwyu.cc:455-503: the dependencies of the rule, from the n-th on. `checkedOff` are
the keys of `checked_off_by`, whose values are for messages only. Result: the alternatives that
remain, and the edits. -/
def lookAtDeps (env : Env) (gen : Generator) (target : BazelTarget) (details : Result) (accounted : Bool)
    (n : Nat) (needed : List (List BazelTarget)) (checkedOff : List BazelTarget) :
    List Str → List (List BazelTarget) × List Edit
  | [] => (needed, [])
  | dep :: rest =>
    match BazelTarget.parseFrom dep target.package with
    | none => lookAtDeps env gen target details accounted (n + 1) needed checkedOff rest
    | some requested =>
      match checkOff requested needed with
      | some (s, others) =>
        lookAtDeps env gen target details accounted (n + 1) others (checkedOff ++ s) rest
      | none =>
        let r := lookAtDeps env gen target details accounted (n + 1) needed checkedOff rest
        if requested ∈ checkedOff then r
        else if accounted && !isAlwayslink gen requested &&
            (env.ignoreKeep || !hasKeepComment (env.line details target n)) then
          (r.1, ⟨.remove, target, dep, []⟩ :: r.2)
        else r

/-- bant/tool/dwyu.cc:505-525: the alternatives that remain. -/
def addNeeded (gen : Generator) (target : BazelTarget) : List (List BazelTarget) → Option (List Edit)
  | [] => some []
  | alternatives :: rest =>
    match addNeeded gen target rest with
    | none => none
    | some edits =>
      match alternatives with
      | [] => none
      | [t] =>
        match canSee gen target t with
        | none => none
        | some see =>
          if see && isTestonlyCompatible gen target t then
            some (⟨.add, target, [], t.toStringRelativeTo target.package⟩ :: edits)
          else some edits
      | _ :: _ :: _ => some edits

/-- bant/tool/dwyu.cc:420-527, `CreateEditsForTarget`. -/
def createEditsForTarget (env : Env) (gen : Generator) (target : BazelTarget) (details : Result)
    (package : BazelPackage) : Option (List Edit) :=
  match stringList details.srcs, stringList details.hdrs, stringList details.deps with
  | some srcs, some hdrs, some deps =>
    let sources := srcs ++ hdrs
    match neededBySources env gen target package sources sources with
    | none => none
    | some (sets, accounted) =>
      match minimizeDependencySet sets with
      | none => none
      | some needed =>
        let (remaining, removals) := lookAtDeps env gen target details accounted 0 needed [] deps
        (addNeeded gen target remaining).map (removals ++ ·)
  | _, _, _ => none

/-- bant/tool/dwyu.cc:575-594, `CreateEditsForPattern`: the edits. -/
def createEditsForPattern (env : Env) (gen : Generator) (pattern : BazelPattern) (files : Files) :
    Option (List Edit) :=
  mapAll (fun f =>
      if !pattern.matchPackage f.1 then some []
      else forTargets f.2 [c!"cc_library", c!"cc_binary", c!"cc_test"] fun details =>
        match f.1.qualifiedTarget details.name with
        | none => some []
        | some target =>
          if !pattern.matchTarget target then some []
          else createEditsForTarget env gen target details f.1)
    files

/-- bant/tool/dwyu.cc:596-614, `CreateDependencyEdits`: the edits; it returns their number. -/
def createDependencyEdits (env : Env) (pattern : BazelPattern) (files : Files) : Option (List Edit) :=
  (Generator.create files).bind fun gen => createEditsForPattern env gen pattern files

end Dwyu
end Bant
