import Verif.Model.Prewarm

/-! Specification of the log of accesses (C38, C65). -/
namespace Bant
namespace PrewarmSpec
open Prewarm

/-- Each one once, in the order of the first occurrence. -/
def firsts {α : Type} [DecidableEq α] : List α → List α
  | [] => []
  | x :: xs => x :: (firsts xs).filter (· ≠ x)

/-- A record of the log. -/
def record (a : Access) : Str := (if a.file then c!"F" else c!"D") ++ a.path ++ c!"\n"

/-- A path that can be written to a line and passed to the operating system. -/
def Plain (path : Str) : Prop := path ≠ [] ∧ '\n' ∉ path ∧ '\x00' ∉ path

/-- No path is used both as file and as directory. -/
def OneKind (as : List Access) : Prop := ∀ a ∈ as, ∀ b ∈ as, a.path = b.path → a = b

/-- The arguments that matter: without the flags that do not change what is accessed, and options
with their argument. -/
def relevant : List Str → List Str
  | [] => []
  | a :: as =>
    if a ∈ [c!"-v", c!"-q", c!"-vq", c!"-qv", c!"-k"] then relevant as
    else if a ∈ [c!"-C", c!"-o", c!"-f"] then relevant (as.drop 1)
    else a :: relevant as
termination_by as => as.length

end PrewarmSpec
end Bant
