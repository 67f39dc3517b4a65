import Verif.Model.Cli

/-! The lines there can be in the statistics (C128). -/
namespace Bant
namespace StatsSpec
open Cli

/-- How lines of the statistics begin, and what is counted: for all commands, for those that follow dependencies, and
for those that edit. -/
def titles (cmd : Command) : List (Str × Str) :=
  [(c!"BUILD file glob walk", c!"files/directories"), (c!"read(BUILD)      ", c!"BUILD files"),
    (c!"Parse & build AST", c!"BUILD files"), (c!"Elaborated", c!"packages"),
    (c!"  - of which glob() walking", c!"files")] ++
  (if cmd ∈ [.print, .listWorkspace, .aliasedBy, .canonicalizeDeps] then []
    else [(c!"Dependency follow iterations", c!"rounds"), (c!"  - of which exist-check", c!"BUILD files")]) ++
  (match cmd with
    | .canonicalizeDeps => [(c!"Canonicalization checked", c!"dependencies")]
    | .dwyu => [(c!"DWYU preparation", c!"indexed targets"), (c!"read(C++ source)", c!"sources"),
        (c!"Grep'ed for #inc", c!"sources")]
    | _ => [])

end StatsSpec
end Bant
