import Verif.Model.Project
import Verif.Lemmas.ParserFile

/-! What should come out of a history of loading files (C24, C42). `Step` is the type of the
operations and `TokensOf`, `Parses` are tokens and grammar of a file. -/
namespace Bant.Project
open Parser Scanner Grammar

/-! ### What should come out of a history -/

/-- The package, name, content and address of a step that adds a readable file. -/
def readable : Step → Option (BazelPackage × Str × Str × Nat)
  | .add pkg name (some content) base => some (pkg, name, content, base)
  | _ => none

/-- The first readable file for a package. -/
def firstFile (h : List Step) (pkg : BazelPackage) : Option (BazelPackage × Str × Str × Nat) :=
  (h.filterMap readable).find? fun f => f.1 = pkg

/-- Step `i` adds a readable file and no step before has added one for the same package. -/
def IsFirst (h : List Step) (i : Nat) (f : BazelPackage × Str × Str × Nat) : Prop :=
  (h[i]?.bind readable) = some f ∧ ∀ j g, j < i → (h[j]?.bind readable) = some g → g.1 ≠ f.1

/-- A file that has a syntax error. -/
def Malformed (content : Str) : Prop :=
  ∀ ts tree, TokensOf content ts → ¬ Parses .program ts [] tree

/-- Step `i` fails: the file cannot be read, or is the one loaded for its package and has
a syntax error. -/
def Fails (h : List Step) (i : Nat) : Prop :=
  (∃ pkg name base, h[i]? = some (.add pkg name none base)) ∨
  ∃ f, IsFirst h i f ∧ Malformed f.2.2.1

/-- Where a piece of memory comes from. -/
inductive Origin where
  | file (name content : Str) (base : Nat)
  | generated (name : Str) (range : LineColumnRange)

/-- The memory that belongs to the files loaded and the texts generated in a history, given
the packages loaded before. -/
def regions (seen : List BazelPackage) : List Step → List (Nat × Nat × Origin)
  | [] => []
  | .register b e name range :: h => (b, e, .generated name range) :: regions seen h
  | .add _ _ none _ :: h => regions seen h
  | .add pkg name (some content) base :: h =>
    if pkg ∈ seen then regions seen h
    else (base, base + content.length, .file name content base) :: regions (pkg :: seen) h

end Bant.Project
