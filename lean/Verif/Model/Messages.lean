import Verif.Model.Print
import Verif.Model.Project
import Verif.Model.Table

/-
The texts that the parser writes to its error stream (bant/frontend/parser.cc, all calls of
`ErrAt`). Which of them it writes, about which token, and what is scanned at that time, is in
Model/Parser.
-/
namespace Bant
namespace Messages
open Parser

/-- bant/frontend/scanner.cc:72-83, `operator<<` for `Token`. -/
def tokenText (t : Token) : Str :=
  match t.type with
  | .op _ => c!"('" ++ t.text ++ c!"')"
  | ty => if t.text = [] then Print.opText ty
    else Print.opText ty ++ c!"('" ++ Table.cEscape t.text ++ c!"')"

/-- What is written after the call of `ErrAt(t)`, up to the newline; the lines are with
`Complaint`. -/
def complaintText (t : Token) : Complaint → Str
  | .emptyAccess => c!"Can not have an empty array access"
  | .closingAccess => c!"Expected closing ']' of array access"
  | .emptySlice => c!"Expected at least one valid expression before or after the ':'"
  | .accessSeparator => c!"Expected ':' or ']'"
  | .intLiteral => c!"Error parsing int literal"
  | .value => c!"expected value of sorts"
  | .emptyTuple => c!"This looks like an empty tuple, but ')' is missing"
  | .tupleSeparator => c!"expected `,` as tuple separator."
  | .listStart close => c!"expected `for`, `" ++ Print.opText close ++ c!"', or `,`'"
  | .listSeparator close => c!"expected `,` or closing `" ++ Print.opText close ++ c!"`"
  | .mapSeparator => c!"expected `:` in map-tuple"
  | .expectedIn => c!"expected 'in' after variable tuple"
  | .comprehensionEnd close => c!"expected " ++ Print.opText close ++ c!" at end of comprehension"
  | .assignment => c!"Assignment operator = expected, got " ++ tokenText t
  | .identifier => c!"expected identifier, got " ++ tokenText t
  | .statement => c!"expected `(` or `=`"

/-- bant/frontend/parser.cc:539-543, `ErrAt`, with bant/frontend/source-locator.cc:48-56 and what
the caller writes after it. `scans` is how often the scanner had scanned a token: only the lines up
to there are known. -/
def message (name content : Str) (t : Token) (m : Complaint) (scans : Nat) : Option Str :=
  (getLocation content (Project.scanTimes scans (Scanner.init content)).lines t.start
    (t.start + t.text.length)).map fun r =>
      name ++ ':' :: showRange r ++ c!" got '" ++ t.text ++ c!"'; " ++ complaintText t m ++ ['\n']

/-- The messages for tokens with complaints. -/
def messages (name content : Str) : List Token → List (Complaint × Nat) → Option (List Str)
  | t :: ts, m :: ms =>
    match message name content t m.1 m.2, messages name content ts ms with
    | some x, some xs => some (x :: xs)
    | _, _ => none
  | _, _ => some []

/-- bant/frontend/parsed-project.cc:196-206: the messages that are collected while a file is parsed. -/
def ofFile (name content : Str) : Option (List Str) :=
  (parseFile content).bind fun r => messages name content r.2.errs r.2.said

end Messages
end Bant
