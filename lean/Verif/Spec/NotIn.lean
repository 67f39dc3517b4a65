import Verif.Model.Scanner

/-! The text as the line table sees it: newlines between the words of an operator `not in`
count as blanks (see `Props/NotIn.lean`). -/

namespace Bant

/-- Is there an operator `not in` among these tokens that has the position in it ? -/
def inNotIn (ts : List Token) (p : Nat) : Bool :=
  ts.any fun t => t.type == .kNotIn && decide (t.start ≤ p) && decide (p < t.start + t.text.length)

/-- The text, from position `p` on, with blanks for the newlines within a `not in`. -/
def unbroken (ts : List Token) : Nat → Str → Str
  | _, [] => []
  | p, c :: cs => (if c = '\n' ∧ inNotIn ts p = true then ' ' else c) :: unbroken ts (p + 1) cs

/-- The text with blanks for all newlines. -/
def flat (s : Str) : Str := s.map fun c => if c = '\n' then ' ' else c

/-- The text of which the tokens `ts`, up to position `q`, have been read: newlines within a
`not in`, and those that have not been read, are blanks. -/
def counted (ts : List Token) (q : Nat) (content : Str) : Str :=
  unbroken ts 0 (content.take q) ++ flat (content.drop q)

end Bant
