import Verif.Spec.Refactored

/-! Specification of BUILD files with attributes that bant does not know (C140). -/
namespace Bant
namespace RulesSpec
open Commands Cli

/-- The names of the arguments that are looked at: of rules, of `package()`, and of `glob()`. -/
def knownNames : List Str :=
  [c!"name", c!"actual", c!"version", c!"repo_name", c!"deprecation", c!"srcs", c!"hdrs", c!"textual_hdrs",
   c!"public_hdrs", c!"deps", c!"outs", c!"visibility", c!"includes", c!"include_prefix", c!"strip_include_prefix",
   c!"alwayslink", c!"testonly", c!"default_visibility", c!"include", c!"exclude"]

mutual
/-- The same, but calls have more keyword arguments in the second tree, of names that are not known; with whatever
values. -/
inductive Extended : Node → Node → Prop
  | null : Extended .null .null
  | str (t : Str) (triple raw : Bool) : Extended (.str t triple raw) (.str t triple raw)
  | int (rep : Str) (v : Int) : Extended (.int rep v) (.int rep v)
  | ident (i : Str) : Extended (.ident i) (.ident i)
  | unary (op : TokenType) {e e' : Node} : Extended e e' → Extended (.unary op e) (.unary op e')
  | binop (op : TokenType) {a a' b b' : Node} : Extended a a' → Extended b b' →
    Extended (.binop op a b) (.binop op a' b')
  | list (ty : ListType) {xs xs' : List Node} : ExtendedAll false xs xs' → Extended (.list ty xs) (.list ty xs')
  | compr (ty : ListType) {e e' : Node} : Extended e e' → Extended (.compr ty e) (.compr ty e')
  | ternary {a a' b b' c c' : Node} : Extended a a' → Extended b b' → Extended c c' →
    Extended (.ternary a b c) (.ternary a' b' c')
  | assign {l l' r r' : Node} : Extended l l' → Extended r r' → Extended (.assign l r) (.assign l' r')
  | call {f f' a a' : Node} : Extended f f' → Extended a a' → Extended (.call f a) (.call f' a')
  | more {f f' : Node} (ty : ListType) {args args' : List Node} : Extended f f' → ExtendedAll true args args' →
    Extended (.call f (.list ty args)) (.call f' (.list ty args'))
/-- The same for the elements of a list; if these are arguments of a call, there can be more. -/
inductive ExtendedAll : Bool → List Node → List Node → Prop
  | nil {b : Bool} : ExtendedAll b [] []
  | cons {b : Bool} {x x' : Node} {xs xs' : List Node} : Extended x x' → ExtendedAll b xs xs' →
    ExtendedAll b (x :: xs) (x' :: xs')
  | extra {xs xs' : List Node} {k : Str} (v : Node) : k ∉ knownNames → ExtendedAll true xs xs' →
    ExtendedAll true xs (.assign (.ident k) v :: xs')
end

/-- There are more attributes that bant does not know, in BUILD files and workspace files. It is known that bant
survives the evaluation of their values. -/
abbrev SameButUnknown : Command → Machine → Machine → Prop :=
  SameBut (fun m name t t' => Extended t t' ∧ ∀ pkg, ReadFor m pkg name → t' = t ∨ Elab.elabFile (m.glob pkg) t' ≠ none)
    (fun _ => Extended)

end RulesSpec
end Bant
