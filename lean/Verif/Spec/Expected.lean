import Verif.Lemmas.ParserFile

/-!
What a reader takes a message about a syntax error to say: how the message begins (after place and
token), and words of which it says that one of them was expected. For an identifier or a value these
are examples.
-/
namespace Bant
namespace Expected

/-- Beginnings of messages, with what they say is expected. -/
def table : List (Str × List Str) :=
  [(c!"Assignment operator = expected, got ", [c!"="]),
   (c!"expected identifier, got ", [c!"x"]),
   (c!"expected `(` or `=`", [c!"(", c!"="]),
   (c!"expected `,` or closing `)`", [c!",", c!")"]),
   (c!"expected `,` or closing `]`", [c!",", c!"]"]),
   (c!"expected `,` or closing `}`", [c!",", c!"}"]),
   (c!"expected `,` or closing `in`", [c!",", c!"in"]),
   (c!"Can not have an empty array access", [c!"0", c!"x", c!"\"\""]),
   (c!"Expected closing ']' of array access", [c!"]"]),
   (c!"Expected at least one valid expression before or after the ':'", [c!"0", c!"x", c!"\"\""]),
   (c!"Expected ':' or ']'", [c!":", c!"]"]),
   (c!"expected value of sorts", [c!"0", c!"x", c!"\"\""]),
   (c!"This looks like an empty tuple, but ')' is missing", [c!")"]),
   (c!"expected `,` as tuple separator.", [c!","]),
   (c!"Error parsing int literal", [c!"0"]),
   (c!"expected `:` in map-tuple", [c!":"]),
   (c!"expected `for`, `)', or `,`'", [c!"for", c!")", c!","]),
   (c!"expected `for`, `]', or `,`'", [c!"for", c!"]", c!","]),
   (c!"expected `for`, `}', or `,`'", [c!"for", c!"}", c!","]),
   (c!"expected 'in' after variable tuple", [c!"in"]),
   (c!"expected ) at end of comprehension", [c!")"]),
   (c!"expected ] at end of comprehension", [c!"]"]),
   (c!"expected } at end of comprehension", [c!"}"])]

/-- The message says that one of these words was expected. -/
def Says (why : Str) (words : List Str) : Prop := ∃ row ∈ table, row.1 <+: why ∧ row.2 = words

/-- With the word `w` instead of what is there from offset `b` on, after the tokens `pre`, the text can be
continued to a file without syntax errors. -/
def CanFollow (content : Str) (b : Nat) (pre : List Token) (w : Str) : Prop :=
  ∃ more u us tree st, Parser.TokensOf (content.take b ++ (c!"#\n" ++ (w ++ c!" " ++ more))) (pre ++ u :: us) ∧
    u.text = w ∧
    Parser.parseFile (content.take b ++ (c!"#\n" ++ (w ++ c!" " ++ more))) = some (tree, st) ∧ st.errs = []

/-- The tokens end with the bracket of an access, or this and a colon. -/
def AtAccess (pre : List Token) : Prop :=
  (∃ a t, pre = a ++ [t] ∧ t.type = .op '[') ∨ ∃ a t u, pre = a ++ [t, u] ∧ t.type = .op '[' ∧ u.type = .op ':'

end Expected
end Bant
