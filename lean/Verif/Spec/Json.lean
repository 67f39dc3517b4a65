import Verif.Spec.Table

/-! A reader for JSON (RFC 8259), strict or with commas allowed before closing brackets. Numbers, `true`, `false`,
`null` and `\u` are not read, they do not occur in what is compared. -/
namespace Bant
namespace Json

inductive Tok
  | str (s : Str)
  | punct (c : Char)
  deriving DecidableEq

/-- What has been read: tokens; the text of a string that is not complete; whether there was a backslash. -/
structure Lex where
  toks : List Tok := []
  text : Option Str := none
  escaped : Bool := false

/-- One character. -/
def Lex.next (s : Lex) (c : Char) : Option Lex :=
  match s.text with
  | some t =>
    if s.escaped then (TableSpec.jsonEscape c).map fun v => { s with text := some (t ++ [v]), escaped := false }
    else if c = '"' then some { s with toks := s.toks ++ [.str t], text := none }
    else if c = '\\' then some { s with escaped := true }
    else if c.toNat < 32 then none
    else some { s with text := some (t ++ [c]) }
  | none =>
    if c = '"' then some { s with text := some [] }
    else if c = ' ' ∨ c = '\t' ∨ c = '\n' ∨ c = '\r' then some s
    else if c ∈ c!"[]{},:" then some { s with toks := s.toks ++ [.punct c] }
    else none

def lex (text : Str) : Option (List Tok) := do
  let s ← text.foldlM Lex.next {}
  if s.text = none then some s.toks else none

inductive Value
  | str (s : Str)
  | arr (vs : List Value)
  | obj (ms : List (Str × Value))

/-- An array or an object that is not complete. `member`: with the name of the next member. -/
inductive Frame
  | arr (vs : List Value)
  | obj (ms : List (Str × Value))
  | member (ms : List (Str × Value)) (key : Str)

/-- What may come. `next`: a comma, or a closing bracket. -/
inductive Need
  | value | valueOrEnd | next | key | keyOrEnd | colon | nothing
  deriving DecidableEq

structure Parse where
  stack : List Frame := []
  need : Need := .value
  result : Option Value := none

/-- A value is complete. -/
def Parse.give (v : Value) : List Frame → Option Parse
  | [] => some ⟨[], .nothing, some v⟩
  | .arr vs :: st => some ⟨.arr (vs ++ [v]) :: st, .next, none⟩
  | .member ms k :: st => some ⟨.obj (ms ++ [(k, v)]) :: st, .next, none⟩
  | .obj _ :: _ => none

/-- The begin of a value. -/
def Parse.value (s : Parse) : Tok → Option Parse
  | .str t => give (.str t) s.stack
  | .punct c =>
    if c = '[' then some ⟨.arr [] :: s.stack, .valueOrEnd, none⟩
    else if c = '{' then some ⟨.obj [] :: s.stack, .keyOrEnd, none⟩
    else none

/-- A closing bracket. -/
def Parse.close (s : Parse) (c : Char) : Option Parse :=
  match s.stack with
  | .arr vs :: st => if c = ']' then give (.arr vs) st else none
  | .obj ms :: st => if c = '}' then give (.obj ms) st else none
  | _ => none

/-- The name of a member. -/
def Parse.name (s : Parse) (key : Str) : Option Parse :=
  match s.stack with
  | .obj ms :: st => some ⟨.member ms key :: st, .colon, none⟩
  | _ => none

/-- One token. -/
def Parse.step (lenient : Bool) (s : Parse) (t : Tok) : Option Parse :=
  match s.need with
  | .value => s.value t
  | .valueOrEnd => if t = .punct ']' then s.close ']' else s.value t
  | .next =>
    match t with
    | .punct ',' =>
      match s.stack with
      | .arr _ :: _ => some { s with need := if lenient then .valueOrEnd else .value }
      | .obj _ :: _ => some { s with need := if lenient then .keyOrEnd else .key }
      | _ => none
    | .punct c => s.close c
    | .str _ => none
  | .key =>
    match t with
    | .str k => s.name k
    | .punct _ => none
  | .keyOrEnd =>
    match t with
    | .str k => s.name k
    | .punct c => if c = '}' then s.close c else none
  | .colon => if t = .punct ':' then some { s with need := .value } else none
  | .nothing => none

/-- Read a text. -/
def read (lenient : Bool) (text : Str) : Option Value := do
  let ts ← lex text
  let s ← ts.foldlM (Parse.step lenient) {}
  if s.need = .nothing then s.result else none

/-- A text that can be put between quotes as it is. -/
def Plain (s : Str) : Prop := ∀ c ∈ s, c ≠ '"' ∧ c ≠ '\\' ∧ 32 ≤ c.toNat

end Json
end Bant
