import Verif.Spec.SameRules

/-! Specification of BUILD files that differ in the order of attributes and in the quotes of strings (C102). -/
namespace Bant
namespace RulesSpec

/-- Keyword arguments only, and not two with the same name. -/
def Keywords (args : List Node) : Prop :=
  (∀ a ∈ args, ∃ k v, a = .assign (.ident k) v) ∧
    args.Pairwise fun a b => ∀ k v w, a = .assign (.ident k) v → b ≠ .assign (.ident k) w

mutual
/-- The same but for the order of keyword arguments in calls and for how strings are quoted. -/
inductive Restyled : Node → Node → Prop
  | null : Restyled .null .null
  | str (t : Str) (triple raw triple' raw' : Bool) : Restyled (.str t triple raw) (.str t triple' raw')
  | int (rep : Str) (v : Int) : Restyled (.int rep v) (.int rep v)
  | ident (i : Str) : Restyled (.ident i) (.ident i)
  | unary (op : TokenType) {e e' : Node} : Restyled e e' → Restyled (.unary op e) (.unary op e')
  | binop (op : TokenType) {a a' b b' : Node} : Restyled a a' → Restyled b b' →
    Restyled (.binop op a b) (.binop op a' b')
  | list (ty : ListType) {xs xs' : List Node} : RestyledAll xs xs' → Restyled (.list ty xs) (.list ty xs')
  | compr (ty : ListType) {e e' : Node} : Restyled e e' → Restyled (.compr ty e) (.compr ty e')
  | ternary {a a' b b' c c' : Node} : Restyled a a' → Restyled b b' → Restyled c c' →
    Restyled (.ternary a b c) (.ternary a' b' c')
  | assign {l l' r r' : Node} : Restyled l l' → Restyled r r' → Restyled (.assign l r) (.assign l' r')
  | call {f f' a a' : Node} : Restyled f f' → Restyled a a' → Restyled (.call f a) (.call f' a')
  | reorder {f f' : Node} (ty : ListType) {args args' args'' : List Node} : Restyled f f' → RestyledAll args args' →
    Keywords args' → args'.Perm args'' → Restyled (.call f (.list ty args)) (.call f' (.list ty args''))
inductive RestyledAll : List Node → List Node → Prop
  | nil : RestyledAll [] []
  | cons {x x' : Node} {xs xs' : List Node} : Restyled x x' → RestyledAll xs xs' → RestyledAll (x :: xs) (x' :: xs')
end

end RulesSpec
end Bant
