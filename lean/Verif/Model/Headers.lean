import Verif.Model.Query
import Verif.Model.TypesBazel
import Verif.Model.HeaderIndex

/-!
Which headers are provided by which targets: bant/explore/header-providers.cc and
bant/explore/aliased-by.cc.

Messages are not modelled. `none` is undefined behaviour (see `Verif.Model.Query`).
-/
namespace Bant
open Query HeaderIndex

/-- `ParsedProject::ParsedFiles()`: package and tree of each file, in the order of iteration. -/
abbrev Files := List (BazelPackage × Node)

namespace Headers

/-- bant/explore/aliased-by.cc:32-33: the target that an alias stands for. If there is no `actual`, then
`details.actual` is a `string_view` without data; `absl::StrSplit` makes no parts of it (but one of an empty text), so
`ParseFrom` returns nothing. -/
def actualOf (pkg : BazelPackage) (r : Result) : Option BazelTarget :=
  if r.hasActual then BazelTarget.parseFrom r.actual pkg else none

/-- bant/explore/aliased-by.cc:29-36: the aliases of one file, as pairs `(actual, alias)`. -/
def aliasesIn (pkg : BazelPackage) (ast : Node) : Option (List (BazelTarget × BazelTarget)) :=
  forTargets ast [c!"alias"] fun r =>
    match pkg.qualifiedTarget r.name, actualOf pkg r with
    | some alias, some actual => some [(actual, alias)]
    | _, _ => some []

/-- bant/explore/aliased-by.cc:26-39, `ExtractAliasedBy`. The `OneToN` map is represented by
the additions to it. -/
def extractAliasedBy (files : Files) : Option (List (BazelTarget × BazelTarget)) :=
  mapAll (fun f => aliasesIn f.1 f.2) files

/-- Lookup in the result of `extractAliasedBy`. -/
def aliasesOf (index : List (BazelTarget × BazelTarget)) (t : BazelTarget) : List BazelTarget :=
  (index.filter fun e => e.1 = t).map (·.2)

/-- bant/explore/header-providers.cc:74-76: first loop of `LightCanonicalizePath`. -/
def dropDotSlash : Str → Str
  | '.' :: '/' :: s => dropDotSlash s
  | s => s

/-- bant/explore/header-providers.cc:73-81, `LightCanonicalizePath`. -/
def lightCanonicalizePath (path : Str) : Str := stripFront '/' (dropDotSlash path)

/-- bant/explore/header-providers.cc:144-157: the path with the prefix stripped. The access
`header_fqn[strip_len]` is within the string, as that is longer. -/
def stripped (fqn stripPrefix : Str) : Str :=
  let strip := stripBack '/' (stripFront '/' stripPrefix)
  let len := strip.length
  if len > 0 ∧ fqn.length > len ∧ startsWith fqn strip ∧ fqn[len]? = some '/' then fqn.drop (len + 1)
  else fqn

/-- bant/explore/header-providers.cc:165-174: the path as seen from the include directories. -/
def fromIncludes (fqn : Str) (dirs : List Str) : List Str :=
  dirs.flatMap fun dir =>
    let pre := if endsWith dir ['/'] then dir else dir ++ ['/']
    if startsWith fqn pre then [fqn.drop pre.length] else []

/-- bant/explore/header-providers.cc:135-174: the paths under which a header can be included. -/
def pathsOf (pkg : BazelPackage) (r : Result) (header : Str) : Option (List Str) :=
  if r.includePrefix ≠ [] then some [r.includePrefix ++ '/' :: header]
  else
    let fqn := pkg.qualifiedFile header
    (stringList r.includes).map fun dirs => stripped fqn r.stripIncludePrefix :: fromIncludes fqn dirs

/-- bant/explore/header-providers.cc:121-128: the special case of a library in `absl/strings`. -/
def skipStringView (pkg : BazelPackage) (hdrs textual : List Str) : Bool :=
  endsWith pkg.path c!"absl/strings" && hdrs.contains c!"string_view.h" &&
    textual.contains c!"string_view.h"

/-- bant/explore/header-providers.cc:93-177, `IterateCCLibraryHeaders`: the calls of the
callback, without the location of the header. -/
def iterateCCLibraryHeaders (pkg : BazelPackage) (ast : Node) : Option (List (BazelTarget × Str)) :=
  forTargets ast [c!"cc_library", c!"grpc_cc_library"] fun r =>
    match pkg.qualifiedTarget r.name with
    | none => some []
    | some lib =>
      match stringList r.hdrs, stringList r.textualHdrs, stringList r.publicHdrs with
      | some hdrs, some textual, some pub =>
        let skip := skipStringView pkg hdrs textual
        mapAll (fun header =>
            if skip && header = c!"string_view.h" then some []
            else (pathsOf pkg r header).map fun ps => ps.map fun p => (lib, p))
          (hdrs ++ textual ++ pub)
      | _, _, _ => none

/-- bant/explore/header-providers.cc:179-197, `AppendCCLibraryHeaders`: the additions to the
index. -/
def appendCCLibraryHeaders (aliases : List (BazelTarget × BazelTarget)) (pkg : BazelPackage)
    (ast : Node) : Option (List (Str × BazelTarget)) :=
  (iterateCCLibraryHeaders pkg ast).map fun l => l.flatMap fun (lib, path) =>
    (lightCanonicalizePath path, lib) ::
      (aliasesOf aliases lib).map fun a => (lightCanonicalizePath path, a)

/-- `std::map::insert` of several elements: an entry that is there is not overwritten. -/
def insertAll {α β : Type} [DecidableEq α] (m : List (α × β)) : List (α × β) → List (α × β)
  | [] => m
  | e :: es => insertAll (if m.any (fun x => x.1 = e.1) then m else m ++ [e]) es

/-- Lookup in such a map. -/
def lookup {α β : Type} [DecidableEq α] (m : List (α × β)) (k : α) : Option β :=
  (m.find? fun x => x.1 = k).map (·.2)

/-- bant/explore/header-providers.cc:227-245: for one of the two kinds of rules (the flag is
`is_grpc`), the proto libraries they use. -/
def protoUsers (pkg : BazelPackage) (ast : Node) (grpc : Bool) :
    Option (List (BazelTarget × BazelTarget)) :=
  forTargets ast [c!"cc_proto_library", c!"cc_grpc_library"] fun r =>
    match pkg.qualifiedTarget r.name with
    | none => some []
    | some target =>
      let isGrpc : Bool := r.rule = c!"cc_grpc_library"
      match if isGrpc then stringList r.srcs else stringList r.deps with
      | none => none
      | some deps =>
        if isGrpc ≠ grpc then some []
        else some (deps.filterMap fun dep => (BazelTarget.parseFrom dep pkg).map fun p => (p, target))

/-- bant/explore/header-providers.cc:278-280: `:foo.proto` is a way to name a file. -/
def dropColon : Str → Str
  | ':' :: p => p
  | p => p

/-- bant/explore/header-providers.cc:273-290: the headers generated for a proto source. -/
def protoHeaders (pkg : BazelPackage) (grpc : Bool) (proto : Str) : List Str :=
  if ¬ endsWith proto c!".proto" then []
  else
    let stem := beforeLast '.' (dropColon proto)
    let middle := if grpc then c!".grpc" else []
    [c!".pb.h", c!".proto.h"].map fun suffix => pkg.qualifiedFile (stem ++ middle ++ suffix)

/-- bant/explore/header-providers.cc:211-294, `AppendProtoLibraryHeaders`: the additions to the
index. -/
def appendProtoLibraryHeaders (pkg : BazelPackage) (ast : Node) : Option (List (Str × BazelTarget)) :=
  match protoUsers pkg ast false, protoUsers pkg ast true with
  | some plain, some grpc =>
    forTargets ast [c!"proto_library"] fun r =>
      match pkg.qualifiedTarget r.name with
      | none => some []
      | some target =>
        mapAll (fun isGrpc =>
            match lookup (insertAll [] (if isGrpc then grpc else plain)) target with
            | none => some []
            | some lib =>
              (stringList r.srcs).map fun srcs =>
                srcs.flatMap fun proto => (protoHeaders pkg isGrpc proto).map fun h => (h, lib))
          [false, true]
  | _, _ => none

/-- bant/explore/header-providers.cc:297-315, `ExtractHeaderToLibMapping`: the additions to the
index. -/
def headerAdds (files : Files) : Option (List (Str × BazelTarget)) :=
  match extractAliasedBy files with
  | none => none
  | some aliases =>
    mapAll (fun f =>
        if f.2.isNull then some []
        else
          match appendCCLibraryHeaders aliases f.1 f.2 with
          | none => none
          | some cc => (appendProtoLibraryHeaders f.1 f.2).map (cc ++ ·))
      files

/-- bant/explore/header-providers.cc:297-315, `ExtractHeaderToLibMapping` with `suffix_index`. -/
def extractHeaderToLibMapping (files : Files) : Option (StrMap (List BazelTarget)) :=
  (headerAdds files).map (fill [])

/-- bant/explore/header-providers.cc:317-352, `ExtractGeneratedFromGenrule`: what is inserted.
The targets of rules that can not be qualified are skipped after their lists have been read. -/
def genruleAdds (files : Files) : Option (List (Str × BazelTarget)) :=
  mapAll (fun f =>
      if f.2.isNull then some []
      else forTargets f.2 [c!"genrule"] fun r =>
        match stringList r.outs, f.1.qualifiedTarget r.name with
        | none, _ => none
        | some _, none => some []
        | some outs, some target => some (outs.map fun o => (f.1.qualifiedFile o, target)))
    files

/-- bant/explore/header-providers.cc:317-352, `ExtractGeneratedFromGenrule`. The key of the map is
the path here; it is changed by an injective function (`KeyTransform`) there. -/
def extractGeneratedFromGenrule (files : Files) : Option (List (Str × BazelTarget)) :=
  (genruleAdds files).map (insertAll [])

end Headers
end Bant
