import Verif.Model.Dwyu
import Verif.Model.LineCol
import Verif.Model.Ordered

/-!
What DWYU says on the info stream: the messages in bant/tool/dwyu.cc, and the one of
`ExtractGeneratedFromGenrule` in bant/explore/header-providers.cc, which is called first.

The decisions are those of `Verif.Model.Dwyu`; here is what is said about them. `none` is undefined
behaviour or a failed `CHECK`. Locations in BUILD files are given from outside (`Places`, as for
`Dwyu.Env.line`); those in source files are computed.
-/
namespace Bant
namespace Dwyu
open Query Headers HeaderIndex

/-- `ParsedProject::Loc` (bant/frontend/source-locator.cc:48-57) for the name of a rule, and for the n-th string
in the lists `srcs` and `hdrs`, `deps`, `outs` of it. The rule is given by its attributes and target. `known`: for
the name of the rule in `known_libs_`. -/
structure Places where
  name : Result → BazelTarget → Str
  source : Result → BazelTarget → Nat → Str
  dep : Result → BazelTarget → Nat → Str
  out : Result → BazelTarget → Nat → Str
  known : BazelTarget → Str

/-- The flags `verbose` and `do_color`, and the locations. -/
structure Talk where
  verbose : Nat
  color : Bool
  places : Places

/-- The messages; `loc` is the location that comes first in each. -/
inductive Message where
  /-- bant/explore/header-providers.cc:342-345 -/
  | alsoCreated (loc path : Str) (target other : BazelTarget)
  /-- bant/tool/dwyu.cc:295-304 -/
  | unreadable (loc file : Str) (target : BazelTarget) (genrule : Option BazelTarget)
  /-- bant/tool/dwyu.cc:332-334, 364-366 -/
  | relative (loc inc : Str)
  /-- bant/tool/dwyu.cc:349-352 -/
  | similar (loc inc found : Str)
  /-- bant/tool/dwyu.cc:258 -/
  | included (loc inc : Str)
  /-- bant/tool/dwyu.cc:259-268 -/
  | provider (loc : Str) (t : BazelTarget) (visible color : Bool)
  /-- bant/tool/dwyu.cc:380-384 -/
  | generated (loc inc : Str) (genrule : BazelTarget)
  /-- bant/tool/dwyu.cc:400-402 -/
  | unknown (loc inc : Str)
  /-- bant/tool/dwyu.cc:408-410 -/
  | referenced (loc src : Str) (target : BazelTarget)
  /-- bant/tool/dwyu.cc:460-461 -/
  | invalid (loc dep : Str)
  /-- bant/tool/dwyu.cc:475-477 -/
  | again (loc : Str) (target : BazelTarget) (dep : Str)
  /-- bant/tool/dwyu.cc:479-482 -/
  | already (loc : Str) (target : BazelTarget) (dep : Str) (previously : BazelTarget)
  /-- bant/tool/dwyu.cc:499-501 -/
  | unsure (loc : Str) (t : BazelTarget)
  /-- bant/tool/dwyu.cc:509-514 -/
  | choices (loc : Str) (target : BazelTarget) (alternatives : List BazelTarget)
  /-- bant/tool/dwyu.cc:187-190 -/
  | testonly (loc : Str) (target dep : BazelTarget)
  /-- bant/tool/dwyu.cc:522-523 -/
  | notVisible (loc : Str) (dep : BazelTarget)
  /-- bant/tool/dwyu.cc:608-612 -/
  | checked (targets edits : Nat)
deriving DecidableEq

/-- What is written. -/
def Message.text : Message → Str
  | alsoCreated loc path target other =>
    loc ++ c!" '" ++ path ++ c!"' in " ++ target.toString ++ c!" also created by " ++ other.toString ++ c!"\n"
  | unreadable loc file target genrule =>
    loc ++ c!" Can not read source '" ++ file ++ c!"' for target " ++ target.toString ++
      match genrule with
      | some g => c!"; Run genrule `bazel build " ++ g.toString ++ c!"` first.\n"
      | none => c!" -- Missing ?\n"
  | relative loc inc =>
    loc ++ c!" " ++ inc ++ c!" header relative to this file. Consider FQN relative to project root.\n"
  | similar loc inc found =>
    loc ++ c!" FYI: instead of '" ++ inc ++ c!"' found library that provides " ++
      (if found.length < inc.length then c!"shorter" else c!"longer") ++ c!" same-suffix path '" ++ found ++ c!"'\n"
  | included loc inc => loc ++ c!" #include \"" ++ inc ++ c!"\"\n"
  | provider loc t visible color =>
    loc ++ c!"    | " ++ t.toString ++
      (if visible then [] else if color then c!"\x1b[31m (not visible)\x1b[0m" else c!" (not visible)") ++ c!"\n"
  | generated loc inc genrule =>
    loc ++ c!" " ++ inc ++ c!" not accounted for; generated by genrule " ++ genrule.toString ++
      c!", but not in hdrs=[...] of any cc_library() we depend on.\n"
  | unknown loc inc =>
    loc ++ c!" unknown provider for " ++ inc ++ c!" -- Missing or from non-standard bazel-rule ?\n"
  | referenced loc src target =>
    loc ++ c!" ^... in source '" ++ src ++ c!"' referenced by " ++ target.toString ++ c!"\n"
  | invalid loc dep => loc ++ c!" Invalid target name '" ++ dep ++ c!"'\n"
  | again loc target dep =>
    loc ++ c!" in target " ++ target.toString ++ c!": dependency " ++ dep ++
      c!" same dependency mentioned multiple times. Run buildifier\n"
  | already loc target dep previously =>
    loc ++ c!" in target " ++ target.toString ++ c!": dependency " ++ dep ++
      c!" provides headers already provided by " ++ previously.toString ++
      c!" before. Multiple libraries providing the same headers ?\n"
  | unsure loc t =>
    loc ++ c!": Unsure what " ++ t.toString ++
      c!" provides, but there are also unaccounted headers. Won't remove.\n"
  | choices loc target alternatives =>
    loc ++ c!" Can't auto-fix: Referenced headers in " ++ target.toString ++
      c!" need exactly one of multiple choices\nAlternatives are:\n" ++
      alternatives.flatMap fun t => c!"\t" ++ t.toString ++ c!"\n"
  | testonly loc target dep =>
    loc ++ c!" '" ++ target.toString ++ c!"' is using headers that would be provided by '" ++ dep.toString ++
      c!"', but the latter is marked testonly, the former not. Not adding dependency.\n"
  | notVisible loc dep => loc ++ c!": Would add " ++ dep.toString ++ c!", but not visible\n"
  | checked targets edits =>
    c!"Checked DWYU on " ++ showInt targets ++ c!" targets." ++
      (if edits = 0 then [] else c!" Emitted " ++ showInt edits ++ c!" edits.") ++ c!"\n"

/-- A set of targets, in the order of iteration of a `btree_set`. -/
def inOrder (s : List BazelTarget) : List BazelTarget := s.foldl (fun l t => add t l) []

/-! ### Sources -/

/-- bant/tool/dwyu.cc:123-140, `TryOpenFile`: path, content, and whether it is generated. -/
def openFile (read : Str → Option Str) (file : Str) : Option (Str × Str × Bool) :=
  sourceLocations.findSome? fun dir => (read (dir ++ file)).map fun c => (dir ++ file, c, !dir.isEmpty)

/-- bant/tool/dwyu.cc:550-556: the index of lines of a source, up to the last of the includes. -/
def lineIndex (content : Str) (incs : List (Nat × Str)) : Option LineMap :=
  match incs.getLast? with
  | none => some []
  | some (pos, inc) => LineMap.initFromView (content.take (pos + inc.length))

/-- `NamedLineIndexedContent::Loc` of an included file: bant/frontend/named-content.cc:28-32 and
bant/frontend/source-locator.cc:43-51. -/
def sourceLoc (path content : Str) (index : LineMap) (inc : Nat × Str) : Option Str :=
  (getLocation content index inc.1 (inc.1 + inc.2.length)).map fun r => path ++ ':' :: showRange r

/-- bant/tool/dwyu.cc:259-268: for each provider. -/
def sayProviders (talk : Talk) (gen : Generator) (target : BazelTarget) (loc : Str) :
    List BazelTarget → Option (List Message)
  | [] => some []
  | t :: ts =>
    match canSee gen target t, sayProviders talk gen target loc ts with
    | some see, some rest => some (.provider loc t see talk.color :: rest)
    | _, _ => none

/-- bant/tool/dwyu.cc:254-269, `maybe_log`. -/
def maybeLog (talk : Talk) (gen : Generator) (target : BazelTarget) (loc inc : Str)
    (alternatives : List BazelTarget) : Option (List Message) :=
  if talk.verbose < 3 then some []
  else (sayProviders talk gen target loc (inOrder alternatives)).map (.included loc inc :: ·)

/-- bant/tool/dwyu.cc:324-404: one of the included files. The result: messages, and whether to refer to the
BUILD file. -/
def sayInclude (talk : Talk) (gen : Generator) (genrules : List (Str × BazelTarget)) (target : BazelTarget)
    (package : BazelPackage) (sources : List Str) (isGenerated : Bool) (loc inc : Str) :
    Option (List Message × Bool) :=
  if isHeaderInList inc sources target.package.path then some ([], false)
  else if isHeaderInList inc sources [] then
    some (if isGenerated then ([], false) else ([.relative loc inc], true))
  else
    match findBySuffix gen.headers inc 2 with
    | none => none
    | some (some found) =>
      (maybeLog talk gen target loc inc found.targets).map fun log =>
        ((if found.found.length ≠ inc.length && talk.verbose > 1 then [.similar loc inc found.found] else []) ++ log,
          false)
    | some none =>
      match findBySuffix gen.headers (package.qualifiedFile inc) 2 with
      | none => none
      | some (some found) =>
        (maybeLog talk gen target loc inc found.targets).map fun log =>
          ((if isGenerated then [] else [.relative loc inc]) ++ log, !isGenerated)
      | some none =>
        match lookup genrules inc with
        | some genrule => some ([.generated loc inc genrule], true)
        | none => some (if talk.verbose > 0 then ([.unknown loc inc], true) else ([], false))

/-- bant/tool/dwyu.cc:324-405: the included files. -/
def sayIncludes (talk : Talk) (gen : Generator) (genrules : List (Str × BazelTarget)) (target : BazelTarget)
    (package : BazelPackage) (sources : List Str) (isGenerated : Bool) (path content : Str) (index : LineMap) :
    List (Nat × Str) → Option (List Message × Bool)
  | [] => some ([], false)
  | inc :: rest =>
    match sourceLoc path content index inc with
    | none => none
    | some loc =>
      match sayInclude talk gen genrules target package sources isGenerated loc inc.2,
        sayIncludes talk gen genrules target package sources isGenerated path content index rest with
      | some (ms, refer), some (more, refer') => some (ms ++ more, refer || refer')
      | _, _ => none

/-- bant/tool/dwyu.cc:286-413: the sources, from the n-th on. -/
def saySources (talk : Talk) (env : Env) (gen : Generator) (genrules : List (Str × BazelTarget))
    (target : BazelTarget) (details : Result) (package : BazelPackage) (sources : List Str) (n : Nat) :
    List Str → Option (List Message)
  | [] => some []
  | src :: rest =>
    let file := package.fullyQualifiedFile env.workspace src
    let here : Option (List Message) :=
      match openFile env.read file with
      | none => some [.unreadable (talk.places.source details target n) file target (lookup genrules file)]
      | some (path, content, isGenerated) =>
        let incs := Includes.extract content
        match lineIndex content incs with
        | none => none
        | some index =>
          (sayIncludes talk gen genrules target package sources isGenerated path content index incs).map fun r =>
            r.1 ++ if r.2 then [.referenced (talk.places.source details target n) src target] else []
    match here, saySources talk env gen genrules target details package sources (n + 1) rest with
    | some ms, some more => some (ms ++ more)
    | _, _ => none

/-! ### Dependencies -/

/-- bant/tool/dwyu.cc:455-503: the dependencies, from the n-th on. `checkedOff` is the map `checked_off_by`. -/
def sayDeps (talk : Talk) (target : BazelTarget) (details : Result) (accounted : Bool)
    (n : Nat) (needed : List (List BazelTarget)) (checkedOff : List (BazelTarget × BazelTarget)) :
    List Str → List Message
  | [] => []
  | dep :: rest =>
    let loc := talk.places.dep details target n
    match BazelTarget.parseFrom dep target.package with
    | none => .invalid loc dep :: sayDeps talk target details accounted (n + 1) needed checkedOff rest
    | some requested =>
      match checkOff requested needed with
      | some (s, others) =>
        sayDeps talk target details accounted (n + 1) others (insertAll checkedOff (s.map fun t => (t, requested)))
          rest
      | none =>
        (match lookup checkedOff requested with
          | some previously =>
            if previously = requested then [.again loc target dep] else [.already loc target dep previously]
          | none => if !accounted && talk.verbose > 1 then [.unsure loc requested] else []) ++
          sayDeps talk target details accounted (n + 1) needed checkedOff rest

/-- bant/tool/dwyu.cc:170-194, `IsTestonlyCompatible`: what is said. -/
def sayTestonly (talk : Talk) (gen : Generator) (target dep : BazelTarget) : List Message :=
  if isTestonlyCompatible gen target dep then []
  else
    match lookup gen.known target with
    | none => []
    | some _ => [.testonly (talk.places.known target) target dep]

/-- bant/tool/dwyu.cc:505-525: the alternatives that remain. -/
def sayNeeded (talk : Talk) (gen : Generator) (target : BazelTarget) (details : Result) :
    List (List BazelTarget) → Option (List Message)
  | [] => some []
  | alternatives :: rest =>
    match sayNeeded talk gen target details rest with
    | none => none
    | some more =>
      match alternatives with
      | [] => none
      | [t] =>
        match canSee gen target t with
        | none => none
        | some see =>
          some ((if see then sayTestonly talk gen target t else []) ++
            (if !(see && isTestonlyCompatible gen target t) && talk.verbose > 1 then
              [.notVisible (talk.places.name details target) t] else []) ++ more)
      | _ :: _ :: _ => some (.choices (talk.places.name details target) target (inOrder alternatives) :: more)

/-! ### Rules -/

/-- bant/tool/dwyu.cc:420-527, `CreateEditsForTarget`: what is said. -/
def sayForTarget (talk : Talk) (env : Env) (gen : Generator) (genrules : List (Str × BazelTarget))
    (target : BazelTarget) (details : Result) (package : BazelPackage) : Option (List Message) :=
  match stringList details.srcs, stringList details.hdrs, stringList details.deps with
  | some srcs, some hdrs, some deps =>
    let sources := srcs ++ hdrs
    match neededBySources env gen target package sources sources,
      saySources talk env gen genrules target details package sources 0 sources with
    | some (sets, accounted), some first =>
      match minimizeDependencySet sets with
      | none => none
      | some needed =>
        let remaining := (lookAtDeps env gen target details accounted 0 needed [] deps).1
        (sayNeeded talk gen target details remaining).map fun last =>
          first ++ sayDeps talk target details accounted 0 needed [] deps ++ last
    | _, _ => none
  | _, _, _ => none

/-- bant/tool/dwyu.cc:575-594, `CreateEditsForPattern`: what is said, for each rule that is looked at. -/
def sayForPattern (talk : Talk) (env : Env) (gen : Generator) (genrules : List (Str × BazelTarget))
    (pattern : BazelPattern) (files : Files) : Option (List (List Message)) :=
  mapAll (fun f =>
      if !pattern.matchPackage f.1 then some []
      else forTargets f.2 [c!"cc_library", c!"cc_binary", c!"cc_test"] fun details =>
        match f.1.qualifiedTarget details.name with
        | none => some []
        | some target =>
          if !pattern.matchTarget target then some []
          else (sayForTarget talk env gen genrules target details f.1).map ([·]))
    files

/-- bant/explore/header-providers.cc:317-352, `ExtractGeneratedFromGenrule`: all outputs, with the package, and the
location. -/
def genruleOuts (talk : Talk) (files : Files) : Option (List (BazelPackage × Str × Str × BazelTarget)) :=
  mapAll (fun f =>
      if f.2.isNull then some []
      else forTargets f.2 [c!"genrule"] fun r =>
        match stringList r.outs, f.1.qualifiedTarget r.name with
        | none, _ => none
        | some _, none => some []
        | some outs, some target =>
          some (outs.zipIdx.map fun o => (f.1, talk.places.out r target o.2, f.1.qualifiedFile o.1, target)))
    files

/-- bant/explore/header-providers.cc:331-347: insert them one by one; `made` is the map. -/
def sayGenrules (made : List (Str × BazelTarget)) : List (BazelPackage × Str × Str × BazelTarget) → List Message
  | [] => []
  | (pkg, loc, path, target) :: rest =>
    (match lookup made path with
      | some other =>
        if target ≠ other && pkg.project.isEmpty then [.alsoCreated loc path target other] else []
      | none => []) ++
      sayGenrules (insertAll made [(path, target)]) rest

/-- bant/tool/dwyu.cc:596-614, `CreateDependencyEdits`: what is said. -/
def sayAll (talk : Talk) (env : Env) (pattern : BazelPattern) (files : Files) : Option (List Message) :=
  match Generator.create files, extractGeneratedFromGenrule files, genruleOuts talk files with
  | some gen, some genrules, some outs =>
    match sayForPattern talk env gen genrules pattern files, createEditsForPattern env gen pattern files with
    | some said, some edits =>
      some (sayGenrules [] outs ++ said.flatten ++ [.checked said.length edits.length])
    | _, _ => none
  | _, _, _ => none

end Dwyu
end Bant
