import Verif.Model.Parser
import Verif.Model.TypesBazel
import Verif.Model.LineCol
import Verif.Model.RangeMap

/-!
The set of loaded files: bant/frontend/parsed-project.{h,cc}.

Addresses are numbers. Where the content of a file is put in memory is decided by the
allocator, so the address is a parameter of the operation. `none` is a failing `CHECK`, or
that the parser does not return.
-/
namespace Bant
namespace Project

/-- bant/frontend/named-content.h:45-75, `NamedLineIndexedContent`: name, content with its
address, and the line index filled by the scanner. -/
structure SourceFile where
  name : Str
  content : Str
  base : Nat
  lines : LineMap
deriving DecidableEq

/-- The implementations of `SourceLocator`: `NamedLineIndexedContent`, and
`FixedSourceLocator` (bant/frontend/source-locator.h:79-96). -/
inductive Locator where
  | file (f : SourceFile)
  | fixed (name : Str) (range : LineColumnRange)
deriving DecidableEq

/-- bant/frontend/parsed-project.h:39-62, `ParsedBuildFile`; the messages in `errors` are
represented by the tokens they are about. -/
structure BuildFile where
  source : SourceFile
  ast : Node
  errors : List Token
  package : BazelPackage

/-- bant/frontend/parsed-project.h:122-127: the members of `ParsedProject`. The map
`package_to_parsed_` is a list, newest file last. -/
structure State where
  files : List (BazelPackage × BuildFile) := []
  errorCount : Nat := 0
  locations : RangeMap.Container Locator := []

/-- bant/frontend/parsed-project.cc:232-237, `FindParsedOrNull`. -/
def State.find (p : State) (pkg : BazelPackage) : Option BuildFile :=
  (p.files.find? fun f => f.1 = pkg).map (·.2)

/-- bant/frontend/parsed-project.cc:212-215, `RegisterLocationRange` of the range `[b, e)`. -/
def State.register (p : State) (b e : Nat) (l : Locator) : State :=
  { p with locations := (RangeMap.insert p.locations b e l).1 }

/-- The scanner after it has scanned `n` tokens. -/
def scanTimes : Nat → Scanner → Scanner
  | 0, s => s
  | n + 1, s => scanTimes n (Scanner.next s).2

/-- bant/frontend/parsed-project.cc:179-210, `AddBuildFileContent`. The result is the file
returned and the new state. -/
def State.addContent (p : State) (pkg : BazelPackage) (name content : Str) (base : Nat) :
    Option (BuildFile × State) :=
  match p.find pkg with
  | some existing => some (existing, p)
  | none =>
    match Parser.parseFile content with
    | none => none
    | some (ast, st) =>
      let source : SourceFile :=
        ⟨name, content, base, (scanTimes st.scans (Scanner.init content)).lines⟩
      let f : BuildFile := ⟨source, ast, st.errs, pkg⟩
      let p := { p with
        files := p.files ++ [(pkg, f)]
        errorCount := if st.errs ≠ [] then p.errorCount + 1 else p.errorCount }
      some (f, p.register base (base + content.length) (.file source))

/-- bant/frontend/parsed-project.cc:148-177, `AddBuildFile`; `content` is the result of
`ReadFileToString`. The inner `none` is `nullptr`. -/
def State.addFile (p : State) (pkg : BazelPackage) (name : Str) (content : Option Str)
    (base : Nat) : Option (Option BuildFile × State) :=
  match content with
  | none => some (none, { p with errorCount := p.errorCount + 1 })
  | some content =>
    match p.addContent pkg name content base with
    | none => none
    | some (f, p) => some (some f, p)

/-- bant/frontend/named-content.cc:28-32 and source-locator.h:87-89, `GetLocation`. -/
def Locator.getLocation (l : Locator) (b e : Nat) : Option (Str × LineColumnRange) :=
  match l with
  | .fixed name range => some (name, range)
  | .file f =>
    if b < f.base then none
    else (Bant.getLocation f.content f.lines (b - f.base) (e - f.base)).map fun r => (f.name, r)

/-- bant/frontend/named-content.cc:34-52 and source-locator.h:91-93, `GetSurroundingLine`;
the result is a range of addresses. -/
def Locator.getSurroundingLine (l : Locator) (b e : Nat) : Option (Nat × Nat) :=
  match l with
  | .fixed _ _ => some (b, e)
  | .file f =>
    if b < f.base then none
    else (Bant.getSurroundingLine f.content (b - f.base) (e - f.base)).map
      fun r => (f.base + r.1, f.base + r.2)

/-- bant/frontend/parsed-project.cc:217-222, `GetLocation` of the text in `[b, e)`. -/
def State.getLocation (p : State) (b e : Nat) : Option (Str × LineColumnRange) :=
  match RangeMap.find p.locations b e with
  | none => none
  | some l => l.getLocation b e

/-- bant/frontend/parsed-project.cc:224-230, `GetSurroundingLine`. -/
def State.getSurroundingLine (p : State) (b e : Nat) : Option (Nat × Nat) :=
  match RangeMap.find p.locations b e with
  | none => none
  | some l => l.getSurroundingLine b e

/-- What can be done to a project: add a build file, or register a generated text. -/
inductive Step where
  | add (pkg : BazelPackage) (name : Str) (content : Option Str) (base : Nat)
  | register (b e : Nat) (name : Str) (range : LineColumnRange)
deriving DecidableEq

/-- One step with its answer. -/
def State.step (p : State) : Step → Option (Option BuildFile × State)
  | .add pkg name content base => p.addFile pkg name content base
  | .register b e name range => some (none, p.register b e (.fixed name range))

/-- A history, with all answers. -/
def State.steps (p : State) : List Step → Option (List (Option BuildFile) × State)
  | [] => some ([], p)
  | s :: ss =>
    match p.step s with
    | none => none
    | some (a, p) =>
      match p.steps ss with
      | none => none
      | some (as, p) => some (a :: as, p)

end Project
end Bant
