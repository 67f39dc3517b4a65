import Verif.Model.LineCol

/-
Model of bant/frontend/scanner.{h,cc}.

The scanner works on the remaining text `rest` (the text from `pos_` to `end_`) and the
offset `pos` of `pos_` in the content. Reading `*p` for `p < end_` is a pattern match on
`rest`, so the model can not read beyond the end.
The content is a list of characters standing for bytes. `isdigit()`/`isxdigit()` of the
C library get a possibly negative `char`, which is formally undefined behaviour in C; in
the model (as in practice) these characters are not digits.
-/
namespace Bant

/-- bant/frontend/scanner.h:28-72, `enum TokenType`. `op c` are the tokens whose value is
the character itself ('!' is `kNot`, which is also used for the keyword `not`), `opEq c`
are the ones with value `c + 256`. -/
inductive TokenType where
  | op (c : Char)
  | opEq (c : Char)
  | identifier
  | stringLiteral
  | numberLiteral
  | kFor
  | kIn
  | kNotIn
  | kAnd
  | kOr
  | kIf
  | kElse
  | error
  | eof
deriving DecidableEq, Repr

/-- bant/frontend/scanner.h:76-80, `struct Token`; the `string_view` is the text together
with its offset in the content. -/
structure Token where
  type : TokenType
  start : Nat
  text : Str
  newlineSinceLast : Bool
deriving DecidableEq, Repr

/-- bant/frontend/scanner.h:118-128, the data members of `Scanner`. `lines` is the line
index of `source_`. -/
structure Scanner where
  rest : Str
  pos : Nat
  lines : LineMap
  newlineCount : Nat
  lastTokenNewlineCount : Nat
  upcoming : Option Token
deriving DecidableEq, Repr

/-- `absl::ascii_isspace` -/
def isSpace (c : Char) : Bool :=
  c == ' ' || c == '\t' || c == '\n' || c == '\x0b' || c == '\x0c' || c == '\r'

/-- `absl::ascii_isdigit`, `isdigit` -/
def isDigit (c : Char) : Bool := '0' ≤ c && c ≤ '9'

/-- `isxdigit` -/
def isXDigit (c : Char) : Bool :=
  ('0' ≤ c && c ≤ '9') || ('a' ≤ c && c ≤ 'f') || ('A' ≤ c && c ≤ 'F')

/-- `absl::ascii_isalpha` -/
def isAlpha (c : Char) : Bool := ('a' ≤ c && c ≤ 'z') || ('A' ≤ c && c ≤ 'Z')

/-- bant/frontend/scanner.cc:110-112 -/
def isIdentifierChar (c : Char) : Bool := isAlpha c || c == '_' || isDigit c

/-- bant/frontend/scanner.cc:85-91, the constructor: pushes the begin of the content. -/
def Scanner.init (content : Str) : Scanner :=
  { rest := content, pos := 0, lines := [0], newlineCount := 0, lastTokenNewlineCount := 0,
    upcoming := none }

namespace Scanner

/-- What a scanning loop works on: position, line table, newline count. The `CHECK` in
`PushNewline` is not modelled here; that the pushed offsets are increasing is proved. -/
structure Cursor where
  rest : Str
  pos : Nat
  lines : LineMap
  nl : Nat
deriving DecidableEq, Repr

/-- bant/frontend/scanner.cc:93-108, the loop in `SkipSpace`. -/
def skipSpace (inComment : Bool) : Str → Nat → LineMap → Nat → Cursor
  | [], pos, lines, nl => ⟨[], pos, lines, nl⟩
  | c :: cs, pos, lines, nl =>
    if isSpace c || c == '\\' || c == '#' || inComment then
      if c = '#' then skipSpace true cs (pos + 1) lines nl
      else if c = '\n' then skipSpace false cs (pos + 1) (lines ++ [pos + 1]) (nl + 1)
      else skipSpace inComment cs (pos + 1) lines nl
    else ⟨c :: cs, pos, lines, nl⟩

/-- bant/frontend/scanner.cc:114-124, `ConsumeOptionalIn`: the consumed text if the next
word starts with `in`. -/
def consumeOptionalIn (rest : Str) : Option Str :=
  let ws := rest.takeWhile isSpace
  match rest.drop ws.length with
  | 'i' :: 'n' :: _ => some (ws ++ ['i', 'n'])
  | _ => none

/-- bant/frontend/scanner.cc:177-195: the loop of `HandleString` after the opening quote
up to (not including) the closing one. Result: the consumed text, line table, newline
count, and if the closing quote has been found. -/
def stringLoop (quote : Char) (triple : Bool) :
    Str → Nat → LineMap → Nat → Nat → Bool → Str × LineMap × Nat × Bool
  | [], _, lines, nl, _, _ => ([], lines, nl, false)
  | c :: cs, pos, lines, nl, closeCount, lastEsc =>
    let isQuote := c == quote && !lastEsc
    if isQuote && closeCount == 1 then ([], lines, nl, true)
    else
      let closeCount' := if isQuote then closeCount - 1 else if triple then 3 else 1
      let lastEsc' := c == '\\' && !lastEsc
      let lines' := if c = '\n' then lines ++ [pos + 1] else lines
      let nl' := if c = '\n' then nl + 1 else nl
      let r := stringLoop quote triple cs (pos + 1) lines' nl' closeCount' lastEsc'
      (c :: r.1, r.2.1, r.2.2.1, r.2.2.2)

/-- Raw result of the `Handle..` functions: type and text of the token, line table and
newline count afterwards. -/
structure Handled where
  type : TokenType
  text : Str
  lines : LineMap
  nl : Nat
deriving DecidableEq, Repr

/-- bant/frontend/scanner.cc:169-171: the optional `r` in front of the quote. -/
def rawPrefix : Str → Str
  | c :: _ => if c = 'r' ∨ c = 'R' then [c] else []
  | [] => []

/-- bant/frontend/scanner.cc:174: do two more quotes follow the first one ? -/
def isTriple (quote : Char) : Str → Bool
  | a :: b :: _ => a == quote && b == quote
  | _ => false

/-- bant/frontend/scanner.cc:165-201, `HandleString` at `rest`, which starts with the
(optional) `r` and the quote. -/
def handleString (rest : Str) (pos : Nat) (lines : LineMap) (nl : Nat) : Handled :=
  let pre := rawPrefix rest
  match rest.drop pre.length with
  | [] => ⟨.error, pre, lines, nl⟩   -- not reachable; callers check that there is a quote
  | q :: body =>
    let triple := isTriple q body
    let open_ : Str := if triple then pre ++ [q, q, q] else pre ++ [q]
    let r := stringLoop q triple (rest.drop open_.length) (pos + open_.length) lines nl
      (if triple then 3 else 1) false
    if r.2.2.2 then ⟨.stringLiteral, open_ ++ r.1 ++ [q], r.2.1, r.2.2.1⟩
    else ⟨.error, open_ ++ r.1, r.2.1, r.2.2.1⟩

/-- bant/frontend/scanner.cc:224-232, the digit loop of `HandleNumber`: the consumed text
and if it stopped at a second dot. -/
def numberLoop (digit : Char → Bool) : Bool → Str → Str × Bool
  | _, [] => ([], false)
  | dotSeen, c :: cs =>
    if digit c || c == '.' then
      if c = '.' ∧ dotSeen = true then ([], true)
      else
        let r := numberLoop digit (dotSeen || c == '.') cs
        (c :: r.1, r.2)
    else ([], false)

/-- bant/frontend/scanner.cc:208-222: the base prefix after the first digit and which
digits count. -/
def numberBase (first : Char) (rest : Str) : Str × (Char → Bool) :=
  match first, rest with
  | '0', 'x' :: _ => (['x'], isXDigit)
  | '0', 'o' :: _ => (['o'], isDigit)
  | _, _ => ([], isDigit)

/-- bant/frontend/scanner.cc:203-234, `HandleNumber` at `first :: rest`. -/
def handleNumber (first : Char) (rest : Str) : TokenType × Str :=
  let x := numberBase first rest
  let r := numberLoop x.2 false (rest.drop x.1.length)
  (if r.2 then .error else .numberLiteral, first :: (x.1 ++ r.1))

/-- bant/frontend/scanner.cc:236-252, `HandleAssignOrRelational` and
`HandleNotOrNotEquals` (same code). -/
def handleRelational (first : Char) (rest : Str) : TokenType × Str :=
  match rest with
  | '=' :: _ => (.opEq first, [first, '='])
  | _ => (.op first, [first])

/-- bant/frontend/scanner.cc:155-162: keywords without `not`. -/
def wordType (word : Str) : TokenType :=
  if word = c!"in" then .kIn
  else if word = c!"for" then .kFor
  else if word = c!"and" then .kAnd
  else if word = c!"or" then .kOr
  else if word = c!"if" then .kIf
  else if word = c!"else" then .kElse
  else .identifier

/-- bant/frontend/scanner.cc:131-133: does a raw string start here ? -/
def isRawString : Str → Bool
  | a :: b :: _ :: _ => (a == 'r' || a == 'R') && (b == '"' || b == '\'')
  | _ => false

/-- bant/frontend/scanner.cc:126-163, `HandleIdentifierKeywordRawStringOrInvalid`. -/
def handleWord (rest : Str) (pos : Nat) (lines : LineMap) (nl : Nat) : Handled :=
  if isRawString rest then handleString rest pos lines nl
  else match rest with
    | [] => ⟨.error, [], lines, nl⟩   -- not reachable
    | c :: _ =>
      if !isIdentifierChar c then ⟨.error, [c], lines, nl⟩
      else
        let word := rest.takeWhile isIdentifierChar
        if word = c!"not" then
          match consumeOptionalIn (rest.drop word.length) with
          | some t => ⟨.kNotIn, word ++ t, lines, nl⟩
          | none => ⟨.op '!', word, lines, nl⟩
        else ⟨wordType word, word, lines, nl⟩

/-- bant/frontend/scanner.cc:266-281: characters that are a token of their own. -/
def singleChars : List Char :=
  ['(', ')', '{', '}', '[', ']', ',', ':', '+', '-', '*', '/', '.', '%', '|']

/-- bant/frontend/scanner.cc:265-305: the `switch` in `Next`, at non-empty `rest`. -/
def dispatch (c : Char) (cs : Str) (pos : Nat) (lines : LineMap) (nl : Nat) : Handled :=
  if singleChars.contains c then ⟨.op c, [c], lines, nl⟩
  else if c = '!' then
    let r := handleRelational c cs; ⟨r.1, r.2, lines, nl⟩
  else if c = '<' ∨ c = '>' ∨ c = '=' then
    let r := handleRelational c cs; ⟨r.1, r.2, lines, nl⟩
  else if isDigit c then
    let r := handleNumber c cs; ⟨r.1, r.2, lines, nl⟩
  else if c = '"' ∨ c = '\'' then handleString (c :: cs) pos lines nl
  else handleWord (c :: cs) pos lines nl

/-- bant/frontend/scanner.cc:261-311, `Next` if there is no upcoming token. -/
def nextRaw (s : Scanner) : Token × Scanner :=
  let k := skipSpace false s.rest s.pos s.lines s.newlineCount
  match k.rest with
  | [] =>
    (⟨.eof, k.pos, [], false⟩,
      { s with rest := [], pos := k.pos, lines := k.lines, newlineCount := k.nl })
  | c :: cs =>
    let h := dispatch c cs k.pos k.lines k.nl
    (⟨h.type, k.pos, h.text, s.lastTokenNewlineCount != h.nl⟩,
      { s with rest := k.rest.drop h.text.length, pos := k.pos + h.text.length,
               lines := h.lines, newlineCount := h.nl, lastTokenNewlineCount := h.nl })

/-- bant/frontend/scanner.cc:254-259, `Next`. -/
def next (s : Scanner) : Token × Scanner :=
  match s.upcoming with
  | some t => (t, { s with upcoming := none })
  | none => nextRaw s

/-- bant/frontend/scanner.h:97-103, `Peek`. -/
def peek (s : Scanner) : Token × Scanner :=
  match s.upcoming with
  | some t => (t, s)
  | none => let r := next s; (r.1, { r.2 with upcoming := some r.1 })

end Scanner
end Bant
