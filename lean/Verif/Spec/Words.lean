import Verif.Model.Located

/-!
Where the names, strings and numbers of a tree are written (C109).

The words of a file are its identifiers, numbers, strings and plus signs, one after the other. The words of a tree
are those that it has when it is written from left to right. A tree is read from a file if its words are the words of
the file, in the same order. And the texts of the tree are those that stand at their places.
-/
namespace Bant
namespace Located

mutual
/-- All texts (identifiers: `i`) and all ranges in a tree have a property. -/
def Tree.All (p : View → Prop) (q : TokenType → Nat × Nat → Prop) (i : View → Prop) : Tree → Prop
  | .null => True
  | .str v _ _ => p v
  | .int v _ => p v
  | .ident v => i v
  | .unary _ n => n.All p q i
  | .binop op r a b => q op r ∧ a.All p q i ∧ b.All p q i
  | .list _ xs => AllOf p q i xs
  | .compr _ f => f.All p q i
  | .ternary a b c => a.All p q i ∧ b.All p q i ∧ c.All p q i
  | .assign a b => a.All p q i ∧ b.All p q i
  | .call a b => a.All p q i ∧ b.All p q i
def AllOf (p : View → Prop) (q : TokenType → Nat × Nat → Prop) (i : View → Prop) : List Tree → Prop
  | [] => True
  | x :: xs => x.All p q i ∧ AllOf p q i xs
end

/-- The text is in the file, where its place says. -/
def InFile (content : Str) (v : View) : Prop :=
  ∃ pos, v.place = .file pos ∧ pos + v.text.length ≤ content.length ∧ v.text = (content.drop pos).take v.text.length

/-- The range of a sum is one of the file, that of the `+`. -/
def RangeIn (content : Str) (op : TokenType) (r : Nat × Nat) : Prop :=
  op = .op '+' → r.1 ≤ r.2 ∧ r.2 ≤ content.length ∧ (content.drop r.1).take (r.2 - r.1) = c!"+"

end Located

namespace Words

/-- Number of quotes at each end of a string, without a prefix. -/
def quotes (s : Str) : Nat := if s.take 3 = c!"\"\"\"" && 6 ≤ s.length then 3 else 1

/-- Length of the prefix of a string. -/
def prefixed (s : Str) : Nat :=
  match s with
  | c :: _ => if c = 'r' || c = 'R' then 1 else 0
  | [] => 0

/-- The range of a string that is between the quotes. -/
def inside (t : Token) : Nat × Nat :=
  let k := prefixed t.text
  let q := quotes (t.text.drop k)
  (t.start + k + q, t.start + t.text.length - q)

/-- The types of words. -/
def isWord (ty : TokenType) : Bool :=
  ty = .identifier || ty = .numberLiteral || ty = .stringLiteral || ty = .op '+'

/-- The range of a word. -/
def wordOf (t : Token) : Option (Nat × Nat) :=
  if t.type = .stringLiteral then some (inside t)
  else if isWord t.type then some (t.start, t.start + t.text.length)
  else none

/-- The words of tokens. -/
def wordsOf (ts : List Token) : List (Nat × Nat) := ts.filterMap wordOf

mutual
/-- The words of a tree, in the order in which they are written. -/
def words : Located.Tree → List (Nat × Nat)
  | .null => []
  | .str v _ _ => [v.range]
  | .int v _ => [v.range]
  | .ident v => [v.range]
  | .unary _ n => words n
  | .binop op r a b => words a ++ ((if op = .op '+' then [r] else []) ++ words b)
  | .list _ xs => wordsIn xs
  | .compr _ f => words f
  | .ternary c a b => words a ++ (words c ++ words b)
  | .assign a b => words a ++ words b
  | .call a b => words a ++ words b
def wordsIn : List Located.Tree → List (Nat × Nat)
  | [] => []
  | x :: xs => words x ++ wordsIn xs
end

/-- The statements are read from the tokens, each from a part of them; strings between them are left out. -/
inductive Statements : List Token → List Located.Tree → Prop
  | none : Statements [] []
  | doc {t ts xs} : t.type = .stringLiteral → Statements ts xs → Statements (t :: ts) xs
  | next {t seg ts x xs} : t.type ≠ .stringLiteral → words x = wordsOf (t :: seg) → Statements ts xs →
      Statements (t :: seg ++ ts) (x :: xs)

end Words
end Bant
