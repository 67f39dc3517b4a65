import Verif.Model.Ast

/-! Equality of syntax trees is decidable (used in examples). -/
namespace Bant
namespace Node

mutual
def beq : Node → Node → Bool
  | .null, .null => true
  | .str a b c, .str a' b' c' => a = a' && b = b' && c = c'
  | .int a b, .int a' b' => a = a' && b = b'
  | .ident a, .ident a' => a = a'
  | .unary a b, .unary a' b' => a = a' && beq b b'
  | .binop a b c, .binop a' b' c' => a = a' && beq b b' && beq c c'
  | .list a b, .list a' b' => a = a' && beqs b b'
  | .compr a b, .compr a' b' => a = a' && beq b b'
  | .ternary a b c, .ternary a' b' c' => beq a a' && beq b b' && beq c c'
  | .assign a b, .assign a' b' => beq a a' && beq b b'
  | .call a b, .call a' b' => beq a a' && beq b b'
  | _, _ => false
def beqs : List Node → List Node → Bool
  | [], [] => true
  | a :: as, b :: bs => beq a b && beqs as bs
  | _, _ => false
end

mutual
theorem beq_iff : ∀ a b : Node, beq a b = true ↔ a = b
  | .null, b => by cases b <;> simp [beq]
  | .str _ _ _, b => by cases b <;> simp [beq, and_assoc]
  | .int _ _, b => by cases b <;> simp [beq]
  | .ident _, b => by cases b <;> simp [beq]
  | .unary _ x, b => by cases b <;> simp [beq, beq_iff x]
  | .binop _ x y, b => by cases b <;> simp [beq, beq_iff x, beq_iff y, and_assoc]
  | .list _ x, b => by cases b <;> simp [beq, beqs_iff x]
  | .compr _ x, b => by cases b <;> simp [beq, beq_iff x]
  | .ternary x y z, b => by cases b <;> simp [beq, beq_iff x, beq_iff y, beq_iff z, and_assoc]
  | .assign x y, b => by cases b <;> simp [beq, beq_iff x, beq_iff y]
  | .call x y, b => by cases b <;> simp [beq, beq_iff x, beq_iff y]
theorem beqs_iff : ∀ a b : List Node, beqs a b = true ↔ a = b
  | [], b => by cases b <;> simp [beqs]
  | x :: xs, b => by cases b <;> simp [beqs, beq_iff x, beqs_iff xs]
end

instance : DecidableEq Node := fun a b => decidable_of_iff _ (beq_iff a b)

end Node
end Bant
