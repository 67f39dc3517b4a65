import Verif.Model.Ast

/-
Model of bant/frontend/print-visitor.{h,cc}.

The printer writes to a stream; the model yields the text. A regular expression is what a
search with it gives: `find s` is the begin and the length of the first match in `s`.
Whether such a function belongs to a regular expression of the RE2 library is not modelled;
the property theorems hold for every function.
-/
namespace Bant
namespace Print

/-- bant/frontend/scanner.cc:32-72, `operator<<` for `TokenType`. Values that are not an
enumerator write nothing; such do not occur. -/
def opText : TokenType → Str
  | .op '!' => c!"not"
  | .op c => [c]
  | .opEq c => [c, '=']
  | .identifier => c!"ident"
  | .stringLiteral => c!"string"
  | .numberLiteral => c!"number"
  | .kFor => c!"for"
  | .kIn => c!"in"
  | .kNotIn => c!"not in"
  | .kAnd => c!"and"
  | .kOr => c!"or"
  | .kIf => c!"if"
  | .kElse => c!"else"
  | .error => c!"<<ERROR>>"
  | .eof => c!"<<EOF>>"

/-- bant/frontend/print-visitor.cc:71-77, `PrintListTypeOpen` -/
def openText : ListType → Str
  | .list => c!"["
  | .map => c!"{"
  | .tuple => c!"("

/-- bant/frontend/print-visitor.cc:78-84, `PrintListTypeClose` -/
def closeText : ListType → Str
  | .list => c!"]"
  | .map => c!"}"
  | .tuple => c!")"

/-- bant/frontend/print-visitor.cc:29-46, `kColor`: bold, colour of the left side of an
assignment, reset, highlight on and off. -/
def bold : Str := c!"\x1b[1m"
def lhsColor : Str := c!"\x1b[35m"
def reset : Str := c!"\x1b[0m"
def highlightOn : Str := c!"\x1b[7m"
def highlightOff : Str := c!"\x1b[27m"

/-- `if (do_color_) out_ << text` -/
def colored (color : Bool) (text : Str) : Str := if color then text else []

/-- `std::string(n, ' ')` -/
def spaces (n : Nat) : Str := List.replicate n ' '

/-- Decimal digits of a number, most significant first. -/
def natText (n : Nat) : Str := (toString n).toList

/-- `out_ << int64_t` -/
def intText : Int → Str
  | .ofNat n => natText n
  | .negSucc n => '-' :: natText (n + 1)

/-- bant/frontend/print-visitor.cc:161-163: the quote character. -/
def quoteChar (text : Str) : Char := if '"' ∈ text then '\'' else '"'

/-- bant/frontend/print-visitor.cc:164-170: one or three quotes. -/
def quotes (text : Str) (triple : Bool) : Str :=
  if triple then [quoteChar text, quoteChar text, quoteChar text] else [quoteChar text]

mutual
/-- bant/frontend/print-visitor.cc:64-180, the `Visit` functions; the null pointer is not
visited (bant/frontend/ast.h:330-333). `mark` is `PrintMaybeHighlight`, `i` the indentation
`indent_`. The name of a call is read from a node that is assumed to be an identifier, see
`wellTyped`. -/
def printWith (mark : Str → Str) (color : Bool) (i : Nat) : Node → Str
  | .null => []
  | .str text triple raw =>
    (if raw then ['r'] else []) ++ quotes text triple ++ mark text ++ quotes text triple
  | .int rep v => if rep = [] then intText v else rep
  | .ident id => mark id
  | .unary op e => opText op ++ (if op = .op '!' then [' '] else []) ++ printWith mark color i e
  | .binop op l r =>
    printWith mark color i l
      ++ (if op = .op '.' ∨ op = .op '[' then opText op else ' ' :: opText op ++ [' '])
      ++ printWith mark color i r ++ (if op = .op '[' then [']'] else [])
  | .list ty xs =>   -- :86-113, `VisitList`
    openText ty ++ (if 1 < xs.length then ['\n'] else [])
      ++ printElems mark color (i + 4) (decide (1 < xs.length)) true xs
      ++ (if ty = .tuple ∧ xs.length = 1 then [','] else [])
      ++ (if 1 < xs.length then '\n' :: spaces i else []) ++ closeText ty
  | .compr ty f => openText ty ++ printWith mark color i f ++ closeText ty
  | .ternary c p n =>
    printWith mark color i p ++ c!" if " ++ printWith mark color i c
      ++ (if n.isNull then [] else c!" else " ++ printWith mark color i n)
  | .assign l r =>
    colored color lhsColor ++ printWith mark color i l ++ colored color reset ++ c!" = "
      ++ printWith mark color i r
  | .call fn args =>
    colored color bold ++ mark (fn.asIdent.getD []) ++ colored color reset
      ++ printWith mark color i args

/-- bant/frontend/print-visitor.cc:92-99, the loop over the elements. -/
def printElems (mark : Str → Str) (color : Bool) (i : Nat) (multi : Bool) :
    Bool → List Node → Str
  | _, [] => []
  | first, x :: xs =>
    (if first then [] else c!",\n") ++ (if multi then spaces i else [])
      ++ (if x.isNull then c!"NIL" else printWith mark color i x)
      ++ printElems mark color i multi false xs
end

mutual
/-- bant/frontend/print-visitor.cc:66 casts the left side of a call to `Identifier`; the
behaviour is defined if it is one, everywhere in the tree. -/
def wellTyped : Node → Bool
  | .unary _ e => wellTyped e
  | .binop _ l r => wellTyped l && wellTyped r
  | .list _ xs => wellTypedAll xs
  | .compr _ f => wellTyped f
  | .ternary c p n => wellTyped p && wellTyped c && wellTyped n
  | .assign l r => wellTyped l && wellTyped r
  | .call fn args => fn.asIdent.isSome && wellTyped args
  | _ => true

/-- bant/frontend/print-visitor.cc:92, for all elements. -/
def wellTypedAll : List Node → Bool
  | [] => true
  | x :: xs => wellTyped x && wellTypedAll xs
end

mutual
/-- The texts that are given to `PrintMaybeHighlight`, in this order: names of calls,
identifiers and strings (bant/frontend/print-visitor.cc:66, 168, 176). -/
def words : Node → List Str
  | .str text _ _ => [text]
  | .ident id => [id]
  | .unary _ e => words e
  | .binop _ l r => words l ++ words r
  | .list _ xs => wordsAll xs
  | .compr _ f => words f
  | .ternary c p n => words p ++ words c ++ words n
  | .assign l r => words l ++ words r
  | .call fn args => fn.asIdent.getD [] :: words args
  | _ => []

/-- bant/frontend/print-visitor.cc:92, for all elements. -/
def wordsAll : List Node → List Str
  | [] => []
  | x :: xs => words x ++ wordsAll xs
end

/-- Search with a regular expression: begin and length of the first match. A match lies
within the text. -/
abbrev Find := Str → Option (Nat × Nat)

/-- bant/frontend/print-visitor.cc:49-62, `PrintMaybeHighlight` with a regular expression.
`RE2::FindAndConsume` drops the text up to the end of the match. If it finds an empty match at
the begin, nothing is dropped and the next round finds it again: the loop does not end, `none`.
(`n` bounds the rounds; the length of the text is enough.) The result is the text written and
if there has been a match. -/
def highlightLoop (find : Find) (color : Bool) : Nat → Str → Option (Str × Bool)
  | 0, _ => none
  | n + 1, s =>
    match find s with
    | none => some (s, false)
    | some (start, len) =>
      if start + len = 0 then none
      else
        (highlightLoop find color n (s.drop (start + len))).map fun r =>
          (s.take start ++ colored color highlightOn ++ (s.drop start).take len
            ++ colored color highlightOff ++ r.1, true)

/-- bant/frontend/print-visitor.cc:49-62, `PrintMaybeHighlight`. -/
def highlight (find : Option Find) (color : Bool) (s : Str) : Option (Str × Bool) :=
  match find with
  | none => some (s, false)
  | some f => highlightLoop f color (s.length + 1) s

/-- bant/frontend/print-visitor.cc:64-180 with print-visitor.h:51, `any_highlight()`: what is
written and whether something has been highlighted. `none`: does not end, or undefined
behaviour. -/
def printNode (find : Option Find) (color : Bool) (n : Node) : Option (Str × Bool) :=
  if wellTyped n && (words n).all (fun w => (highlight find color w).isSome) then
    some (printWith (fun w => ((highlight find color w).map (·.1)).getD []) color 0 n,
      (words n).any (fun w => ((highlight find color w).map (·.2)).getD false))
  else none

/-- The printed form without regular expression and colour. -/
def print (i : Nat) (n : Node) : Str := printWith id false i n

end Print
end Bant
