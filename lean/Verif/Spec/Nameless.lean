import Verif.Spec.Refactored

/-! Specification of calls without name, like `load()` or `licenses()` (C145). -/
namespace Bant
namespace RulesSpec
open Commands Cli

mutual
/-- A value as it is written: strings, numbers, and lists of these. -/
def constant : Node → Bool
  | .str _ _ _ => true
  | .int _ _ => true
  | .list _ xs => constants xs
  | _ => false
def constants : List Node → Bool
  | [] => true
  | x :: xs => constant x && constants xs
end

/-- An argument that is not the name. -/
def otherArgument : Node → Bool
  | .assign (.ident k) v => k ≠ c!"name" && constant v
  | a => constant a

/-- A call of something that is not a variable (of `vars`) and that has no meaning for evaluation or visibility, with constants
for arguments but without a name. -/
def nameless (vars : List Str) : Node → Bool
  | .call (.ident f) (.list _ args) =>
    f ∉ vars && f ∉ [c!"package", c!"glob", c!"select"] && args.all otherArgument
  | _ => false

/-- The statements that are no such calls. -/
def essential (xs : List Node) : List Node := xs.filter fun x => !nameless (boundIn xs) x

/-- The files are the same but for calls without name. -/
def SameEssentials (t t' : Node) : Prop :=
  t' = t ∨ ∃ xs xs', t = .list .list xs ∧ t' = .list .list xs' ∧ essential xs' = essential xs

/-- BUILD files and workspace files are the same but for calls without name. -/
abbrev SameButNameless : Command → Machine → Machine → Prop :=
  SameBut (fun _ _ => SameEssentials) (fun _ => SameEssentials)

end RulesSpec
end Bant
