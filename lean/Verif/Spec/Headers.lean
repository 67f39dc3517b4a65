import Verif.Model.TypesBazel
import Verif.Spec.Rules

/-! Specification of which target provides which header (C46, C49, C56, C57). -/
namespace Bant
namespace Rules
open Query

/-- The named rules of a file that are of the given kinds, see `C47_visits`. -/
def rulesOf (kinds : List Str) (ast : Node) : List Result :=
  report kwArgsIn kinds false none (sites ast)

/-- The strings and numbers of a list attribute that are not empty. -/
def stringsOf (l : Option ListRef) : List Str :=
  match l with
  | none => []
  | some l => (l.2.filterMap text).filter (· ≠ [])

/-- A tree that can be searched for rules: calls are well-formed, and no list has a missing
element. Trees of files without errors are of this kind (`C56_searchable`). -/
structure Searchable (ast : Node) : Prop where
  proper : ∀ s ∈ sites ast, Proper s
  lists : ∀ fn ty args, (.ident fn, .list ty args) ∈ sites ast → ∀ kw ∈ kwArgsIn args,
    ∀ ty xs, kw.2 = .list ty xs → Node.null ∉ xs

/-- Also the arguments of `load()` are complete. -/
structure Complete (ast : Node) : Prop extends Searchable ast where
  loads : ∀ ty args, (.ident c!"load", .list ty args) ∈ sites ast → Node.null ∉ args

end Rules

namespace HeaderSpec
open Query Rules

/-- The package and tree of each file. -/
abbrev Tree := BazelPackage × Node

/-- `a` is an alias for `t`. -/
def Alias (files : List Tree) (t a : BazelTarget) : Prop :=
  ∃ pkg ast r, (pkg, ast) ∈ files ∧ r ∈ rulesOf [c!"alias"] ast ∧
    pkg.qualifiedTarget r.name = some a ∧ r.hasActual = true ∧ BazelTarget.parseFrom r.actual pkg = some t

/-- A path without the `./` and `/` at its begin. -/
def Normalised (path out : Str) : Prop :=
  ∃ n m, path = (List.replicate n c!"./").flatten ++ List.replicate m '/' ++ out ∧
    ¬ c!"/" <+: out ∧ (m = 0 → ¬ c!"./" <+: out)

/-- A string without the slashes at its ends. -/
def Trimmed (s out : Str) : Prop :=
  ∃ n m, s = List.replicate n '/' ++ out ++ List.replicate m '/' ∧ out.head? ≠ some '/' ∧
    out.getLast? ≠ some '/'

/-- A directory name with a slash at the end. -/
def DirOf (dir out : Str) : Prop :=
  (dir.getLast? = some '/' ∧ out = dir) ∨ (dir.getLast? ≠ some '/' ∧ out = dir ++ c!"/")

/-- Under which paths a header `h` of a library can be included. -/
inductive IncludedAs (pkg : BazelPackage) (r : Result) (h : Str) : Str → Prop
  /-- The library prescribes the directory. -/
  | prescribed : r.includePrefix ≠ [] → IncludedAs pkg r h (r.includePrefix ++ c!"/" ++ h)
  /-- The path in the project, less a directory that is to be stripped. -/
  | short {dir rest} : r.includePrefix = [] → Trimmed r.stripIncludePrefix dir → dir ≠ [] →
      pkg.qualifiedFile h = dir ++ c!"/" ++ rest → IncludedAs pkg r h rest
  /-- The path in the project. -/
  | long : r.includePrefix = [] →
      (∀ dir rest, Trimmed r.stripIncludePrefix dir → dir ≠ [] →
        pkg.qualifiedFile h ≠ dir ++ c!"/" ++ rest) → IncludedAs pkg r h (pkg.qualifiedFile h)
  /-- Relative to an include directory. -/
  | relative {d dir rest} : r.includePrefix = [] → d ∈ stringsOf r.includes → DirOf d dir →
      pkg.qualifiedFile h = dir ++ rest → IncludedAs pkg r h rest

/-- In the library `absl/strings`, one header is not taken into account: that library lists it
in two attributes. -/
def Exempt (pkg : BazelPackage) (r : Result) (h : Str) : Prop :=
  h = c!"string_view.h" ∧ c!"absl/strings" <:+ pkg.path ∧ h ∈ stringsOf r.hdrs ∧
    h ∈ stringsOf r.textualHdrs

/-- The rules in a file that make a C++ library from protocol buffers, each with what it is
made from. -/
def protoRules (pkg : BazelPackage) (ast : Node) (grpc : Bool) : List (BazelTarget × BazelTarget) :=
  (rulesOf [if grpc then c!"cc_grpc_library" else c!"cc_proto_library"] ast).flatMap fun r =>
    match pkg.qualifiedTarget r.name with
    | none => []
    | some lib => (stringsOf (if grpc then r.srcs else r.deps)).filterMap fun d =>
        (BazelTarget.parseFrom d pkg).map fun p => (p, lib)

/-- `Provides files path t`: a header can be included as `path` by users of `t`. -/
inductive Provides (files : List Tree) : Str → BazelTarget → Prop
  | library {pkg ast r lib h p path t} : (pkg, ast) ∈ files →
      r ∈ rulesOf [c!"cc_library", c!"grpc_cc_library"] ast →
      pkg.qualifiedTarget r.name = some lib →
      h ∈ stringsOf r.hdrs ++ stringsOf r.textualHdrs ++ stringsOf r.publicHdrs →
      ¬ Exempt pkg r h → IncludedAs pkg r h p → Normalised p path →
      t = lib ∨ Alias files lib t → Provides files path t
  /-- Headers made from protocol buffers; of several libraries made from the same source, the
  first one in the file. -/
  | proto {pkg ast r proto grpc src stem ext lib} : (pkg, ast) ∈ files →
      r ∈ rulesOf [c!"proto_library"] ast → pkg.qualifiedTarget r.name = some proto →
      ((protoRules pkg ast grpc).find? (·.1 = proto)).map (·.2) = some lib →
      src ∈ stringsOf r.srcs →
      (src = stem ++ c!".proto" ∧ ¬ c!":" <+: src) ∨ src = c!":" ++ stem ++ c!".proto" →
      ext ∈ (if grpc then [c!".grpc.pb.h", c!".grpc.proto.h"] else [c!".pb.h", c!".proto.h"]) →
      Provides files (pkg.qualifiedFile (stem ++ ext)) lib

/-- The outputs of the `genrule`s, in the order of files and rules. -/
def outputs (files : List Tree) : List (Str × BazelTarget) :=
  files.flatMap fun f => (rulesOf [c!"genrule"] f.2).flatMap fun r =>
    match f.1.qualifiedTarget r.name with
    | none => []
    | some t => (stringsOf r.outs).map fun o => (f.1.qualifiedFile o, t)

end HeaderSpec
end Bant
