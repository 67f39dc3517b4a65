import Verif.Model.Cli

/-! Specification of the command line (C43, C44, C70-C73): what the help says. -/
namespace Bant
namespace CliSpec
open Cli

/-- The commands, with their (full) names. -/
def commands : List (Str × Command) :=
  [(c!"print", .print), (c!"parse", .parse), (c!"workspace", .listWorkspace), (c!"list-packages", .listPackages),
   (c!"list-targets", .listTargets), (c!"aliased-by", .aliasedBy), (c!"depends-on", .dependsOn),
   (c!"has-dependents", .hasDependents), (c!"lib-headers", .libraryHeaders),
   (c!"genrule-outputs", .genruleOutputs), (c!"dwyu", .dwyu), (c!"canonicalize", .canonicalizeDeps),
   (c!"compile-flags", .compileFlags), (c!"compilation-db", .compilationDB)]

/-- Output formats. -/
def formats : List (Str × Table.Format) :=
  [(c!"native", .native), (c!"s-expr", .sexpr), (c!"plist", .plist), (c!"json", .json), (c!"csv", .csv),
   (c!"graphviz", .graphviz)]

/-- The word stands for `x`: it is a prefix of the name of that, and of no other name. -/
def StandsFor {α : Type} (table : List (Str × α)) (w : Str) (x : α) : Prop :=
  ∃ name, (name, x) ∈ table ∧ w <+: name ∧ ∀ e ∈ table, w <+: e.1 → e.1 = name

/-- Options in the help, but for `-h`; with an argument where there has to be one. -/
def documented : List (List Str) :=
  [[c!"-C", c!"dir"], [c!"-q"], [c!"-o", c!"file"], [c!"-f", c!"json"], [c!"-r"], [c!"-r2"], [c!"-v"],
   [c!"-E"], [c!"-e"], [c!"-g", c!"regex"], [c!"-i"], [c!"-k"]]

/-- Decimal digits of a number. -/
def decimal (n : Nat) : Str :=
  if n < 10 then [Char.ofNat (48 + n)] else decimal (n / 10) ++ [Char.ofNat (48 + n % 10)]
termination_by n

/-- The option is `-c`. -/
def is (c : Char) : Opt → Bool
  | .opt d _ => d = c
  | .bad => false

def argOf : Opt → Option Str
  | .opt _ arg => arg
  | .bad => none

/-- `-r` without parameter: all; with: that many levels. -/
def depthOf : Option Str → Option Int
  | none => some 2147483647
  | some n => atoi n

/-- The last option `-c`. -/
def last (c : Char) (os : List Opt) : Option Opt := os.foldl (fun acc o => if is c o then some o else acc) none

/-- Options that ask for a text and nothing else. -/
def asksForText : Opt → Bool
  | .opt c _ => c = 'h' || c = 'V'
  | .bad => false

/-- `getopt` does not know it, or the help does not. -/
def unknown : Opt → Bool
  | .opt c _ => c = 'c'
  | .bad => true

end CliSpec
end Bant
