import Verif.Model.Stats
import Verif.Spec.CommandEdits
import Verif.Spec.Dwyu
import Verif.Spec.Collect

/-! What the statistics are expected to say (C128 and following). -/
namespace Bant
namespace StatsSpec
open Stats Commands CommandSpec Headers

/-- The events of a kind. -/
def ofKey (l : List Event) (key : Str) : List Event := l.filter fun e => e.key = key

/-- How often it happened. -/
def total (l : List Event) (key : Str) : Nat := ((ofKey l key).map (·.count)).sum

/-- The number of bytes, if there is any to be counted. -/
def volume (l : List Event) (key : Str) : Option Nat :=
  match (ofKey l key).filterMap (·.bytes) with
  | [] => none
  | n :: ns => some (n :: ns).sum

/-- The sizes that are counted for files that are found, where `before` have been found already: nothing if a file can
not be read, otherwise that of the file that is used for the package. -/
def sizes (m : Machine) (ws : Workspace.Map) (project : Str) (before : List Str) : List Str → List (Option Nat)
  | [] => []
  | f :: fs =>
    ((m.fs.content f).bind fun content =>
      match Collect.packageOf ws f project with
      | some (some pkg) =>
        match firstReadable m ws project pkg before with
        | some other => some other.2.length
        | none => some content.length
      | _ => none) :: sizes m ws project (before ++ [f]) fs

/-- The record says of each kind once how often something happened and how many bytes there were, in the order in which
the kinds appeared. -/
structure Recorded (l : List Event) (r : Record) : Prop where
  order : r.map (·.1) = (l.map (·.key)).eraseDups
  each : ∀ x ∈ r, x.2.count = total l x.1 ∧ x.2.bytes = volume l x.1 ∧
    ((ofKey l x.1).head?.map (·.subject)) = some x.2.subject

/-- What is written about something that was not timed. -/
def line (key : Str) (s : Stat) (time : Str) : Str :=
  key ++ c!" " ++ showInt s.count ++ c!" " ++ s.subject ++ c!" in " ++ time ++ c!"ms\n"

/-- What is written about a number of bytes that took some time: whole KiB. -/
def lineWithSize (key : Str) (s : Stat) (bytes : Nat) (time speed : Str) : Str :=
  key ++ c!" " ++ showInt s.count ++ c!" " ++ s.subject ++ c!" with " ++ showInt (bytes / 1024 : Nat) ++ c!".00 KiB in " ++
    time ++ c!"ms (" ++ speed ++ c!" MB/sec)\n"

/-- The size of a file. -/
def size (m : Machine) (name : Str) : Nat := ((m.fs.content name).map List.length).getD 0

/-- All files that are found can be read, and there are no two for the same package. -/
structure AllClear (m : Machine) (ws : Workspace.Map) (pattern : BazelPattern) (found : List Str) : Prop where
  readable : ∀ f ∈ found, m.fs.content f ≠ none
  apart : (found.map fun f => Collect.packageOf ws f pattern.pattern.package.project).Nodup

/-- The sources of the rules that are looked at, in order. -/
def sourceFiles (files : Files) (pattern : BazelPattern) : List (BazelPackage × Str) :=
  (DwyuSpec.selected files pattern).flatMap fun x => (DwyuSpec.sourcesOf x.2.1).map fun src => (x.1, src)

/-- `contents` are those of the files that can be read, in order. -/
inductive ReadsAll (env : Dwyu.Env) : List (BazelPackage × Str) → List Str → Prop
  | nil : ReadsAll env [] []
  | read {pkg : BazelPackage} {src content : Str} {l : List (BazelPackage × Str)} {contents : List Str} :
    DwyuSpec.Content env pkg src content → ReadsAll env l contents → ReadsAll env ((pkg, src) :: l) (content :: contents)
  | skip {pkg : BazelPackage} {src : Str} {l : List (BazelPackage × Str)} {contents : List Str} :
    (∀ content, ¬ DwyuSpec.Content env pkg src content) → ReadsAll env l contents → ReadsAll env ((pkg, src) :: l) contents

/-- What there is in the directory of a pattern, and (if that is recursive) in the directories below. -/
def Visible (m : Machine) (ws : Workspace.Map) (pattern : BazelPattern) (path : Str) : Prop :=
  ∃ start names dir e, CollectSpec.Start ws pattern.pattern.package start ∧
    CollectSpec.Below m.tree m.symlink start names dir ∧
    (names = [] ∨ pattern.kind = .recursive ∨ pattern.kind = .alwaysMatch) ∧
    (∀ n ∈ names, n ∉ CollectSpec.skipped) ∧ FileSpec.In m.tree dir e path

/-- It takes `n` steps to get to a target, and not less. -/
def Distance (m : Machine) (ws : Workspace.Map) (pattern : BazelPattern) (files : Loaded) (n : Nat) (t : BazelTarget) :
    Prop :=
  GraphSpec.ReachIn (world m ws) pattern (trees files) n t ∧
    ∀ j, j < n → ¬ GraphSpec.ReachIn (world m ws) pattern (trees files) j t

/-- The number of rounds is one more than the largest distance of a target that is not too far away. -/
structure Rounds (m : Machine) (ws : Workspace.Map) (pattern : BazelPattern) (depth : Nat) (files : Loaded) (k : Nat) :
    Prop where
  some : 1 ≤ k
  bound : k ≤ depth + 1
  enough : ∀ n t, n ≤ depth → Distance m ws pattern files n t → n < k
  needed : k = 1 ∨ ∃ t, Distance m ws pattern files (k - 1) t

/-- A number with a point before the last three digits. -/
def Thousandths (us : Int) (s : Str) : Prop :=
  ∃ whole fraction, s = (if us < 0 then c!"-" else []) ++ whole ++ c!"." ++ fraction ∧
    (∀ c ∈ whole ++ fraction, c.isDigit = true) ∧ whole ≠ [] ∧ fraction.length = 3 ∧
    Nat.ofDigitChars 10 (whole ++ fraction) 0 = us.natAbs

/-- How many names are tried until there is a file: `BUILD` comes first. -/
def attempts (name : Str) : Nat := if c!".bazel" <:+ name then 2 else 1

end StatsSpec
end Bant
