import Verif.Model.Regex
import Verif.Model.FileUtils

/-
Model of bant/util/glob-match-builder.{h,cc} and of the search for files of `glob()` in
bant/frontend/elaboration.cc.

Sets of patterns are lists; in which order alternatives are joined does not matter. The regular
expressions are built as text, as in the code, and read by `re2Parse`.
-/
namespace Bant
namespace Glob

/-- What of the substitutions (old, new) `absl::StrReplaceAll` does at the begin of `s`: that with the
longest old text. (From the source of the library, trusted: leftmost first, then longest.) -/
def substitution (subs : List (Str × Str)) (s : Str) : Option (Str × Str) :=
  subs.foldl (fun best sub =>
    if sub.1.isPrefixOf s && (match best with
      | none => true
      | some b => b.1.length < sub.1.length) then some sub else best) none

/-- `absl::StrReplaceAll`: from left to right, what has been inserted is not looked at again. `skip`
is how much of the text belongs to the last old text. Result: new text, number of substitutions. -/
def replaceAll (subs : List (Str × Str)) : (skip : Nat) → Str → Str × Nat
  | _, [] => ([], 0)
  | k + 1, _ :: s => replaceAll subs k s
  | 0, c :: s =>
    match substitution subs (c :: s) with
    | some (old, new) =>
      let r := replaceAll subs (old.length - 1) s
      (new ++ r.1, r.2 + 1)
    | none =>
      let r := replaceAll subs 0 s
      (c :: r.1, r.2)

/-- `absl::StrJoin(parts, "|")` -/
def joinBar : List Str → Str
  | [] => []
  | [p] => p
  | p :: q :: ps => p ++ '|' :: joinBar (q :: ps)

/-- bant/util/glob-match-builder.cc:38-52, `PathMatcher`. -/
structure PathMatcher where
  regex : Str
  verbatim : List Str

/-- bant/util/glob-match-builder.cc:44-46, `PathMatcher::Match`. A regular expression with an error
never matches; one that is not modelled does not occur (`Lemmas/Glob`). -/
def PathMatcher.matches (m : PathMatcher) (s : Str) : Bool :=
  s ∈ m.verbatim || (match re2Parse m.regex with
    | some r => r.fullMatch s
    | none => false)

/-- bant/util/glob-match-builder.cc:61-65: regular expression for a file name pattern. -/
def fileRegex (p : Str) : Str :=
  (replaceAll [(c!"\\*\\*\\/", c!".*/?"), (c!"\\*", c!"[^/]*")] 0 (quoteMeta p)).1

/-- bant/util/glob-match-builder.cc:56-72, `MakeFilenameMatcher`. -/
def makeFilenameMatcher (patterns : List Str) : PathMatcher :=
  ⟨joinBar ((patterns.filter (fun p => '*' ∈ p)).map fileRegex), patterns.filter (fun p => '*' ∉ p)⟩

/-- The text before the last slash, if there is one (`find_last_of`, `substr`). -/
def beforeLastSlash (p : Str) : Option Str :=
  if '/' ∈ p then some ((p.reverse.dropWhile (· ≠ '/')).drop 1).reverse else none

/-- bant/util/glob-match-builder.cc:92-102: regular expression for a directory pattern. -/
def directoryRegex (p : Str) : Str :=
  let r := replaceAll [(c!"\\/", c!"(\\/")] 0
    (replaceAll [(c!"\\*\\*", c!".*/?"), (c!"\\*", c!"[^/]*")] 0 (quoteMeta p)).1
  r.1 ++ (List.replicate r.2 c!")?").flatten

/-- bant/util/glob-match-builder.cc:105-112: a directory and those it is in; `pre` is what has been
passed. -/
def directoriesOf (pre : Str) : Str → List Str
  | [] => [pre]
  | c :: p => if c = '/' then pre :: directoriesOf (pre ++ [c]) p else directoriesOf (pre ++ [c]) p

/-- bant/util/glob-match-builder.cc:74-117, `MakeDirectoryMatcher`. -/
def makeDirectoryMatcher (patterns : List Str) : PathMatcher :=
  ⟨joinBar (patterns.filterMap fun p =>
      match beforeLastSlash p with
      | some d => if '*' ∈ d then some (directoryRegex d) else none
      | none => none),
    patterns.flatMap fun p =>
      match beforeLastSlash p with
      | some d => if '*' ∈ d then [] else directoriesOf [] d
      | none => [[]]⟩

/-- bant/util/glob-match-builder.cc:128-136, `BuildFileMatchPredicate`. -/
def fileMatches (incl excl : List Str) (s : Str) : Bool :=
  (makeFilenameMatcher incl).matches s && !(makeFilenameMatcher excl).matches s

/-- bant/util/glob-match-builder.cc:138-142, `BuildDirectoryMatchPredicate`. -/
def directoryMatches (incl : List Str) (s : Str) : Bool := (makeDirectoryMatcher incl).matches s

/-- bant/frontend/elaboration.cc:238-272, `MultiGlob`. `substr(skip_prefix)` needs paths that are
not shorter; see `Lemmas/Glob`. -/
def multiGlob (t : FileUtils.Tree) (start : Str) (incl excl : List Str) (n : Nat) : Option (List Str) :=
  FileUtils.collectFilesRecursive t start
    (fun dir => directoryMatches incl (dir.drop (start.length + 1)))
    (fun file => fileMatches incl excl (file.drop (start.length + 1))) n

/-- bant/frontend/elaboration.cc:193-222: the strings of the list that `glob()` is replaced by. `none`
inside: the `CHECK` in line 204 fails. -/
def globFiles (t : FileUtils.Tree) (start : Str) (incl excl : List Str) (n : Nat) :
    Option (Option (List Str)) :=
  (multiGlob t start incl excl n).map fun files =>
    if files.all (fun f => start.length + 1 < f.length) then some (files.map (·.drop (start.length + 1)))
    else none

end Glob
end Bant
