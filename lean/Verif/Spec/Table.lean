import Verif.Model.Table

/-! Specification of tables: readers for the formats (C39), columns (C40). -/
namespace Bant
namespace TableSpec
open Table

/-! ### Texts in quotes

A reader for what comes after the opening quote: value, and what is behind the closing quote. -/

abbrev Lit := Str → Option (Str × Str)

/-- RFC 8259: JSON. What may come after a backslash but `u`. -/
def jsonEscape (c : Char) : Option Char :=
  if c = '"' then some '"' else if c = '\\' then some '\\' else if c = '/' then some '/'
  else if c = 'b' then some (Char.ofNat 8) else if c = 'f' then some (Char.ofNat 12)
  else if c = 'n' then some '\n' else if c = 'r' then some '\r' else if c = 't' then some '\t' else none

def hexValue (c : Char) : Option Nat :=
  if '0' ≤ c ∧ c ≤ '9' then some (c.toNat - 48)
  else if 'a' ≤ c ∧ c ≤ 'f' then some (c.toNat - 87)
  else if 'A' ≤ c ∧ c ≤ 'F' then some (c.toNat - 55)
  else none

/-- RFC 8259: JSON. -/
def jsonLit : Lit
  | [] => none
  | c :: r =>
    if c = '"' then some ([], r)
    else if c = '\\' then
      match r with
      | [] => none
      | e :: r =>
        if e = 'u' then
          match r with
          | h1 :: h2 :: h3 :: h4 :: r =>
            match hexValue h1, hexValue h2, hexValue h3, hexValue h4 with
            | some a, some b, some c, some d =>
              (jsonLit r).map fun x => (Char.ofNat (((a * 16 + b) * 16 + c) * 16 + d) :: x.1, x.2)
            | _, _, _, _ => none
          | _ => none
        else
          match jsonEscape e with
          | none => none
          | some v => (jsonLit r).map fun x => (v :: x.1, x.2)
    else if c.toNat < 32 then none
    else (jsonLit r).map fun x => (c :: x.1, x.2)

/-- RFC 4180: CSV. Two quotes stand for one. -/
def csvLit : Lit
  | [] => none
  | c :: r =>
    if c = '"' then
      match r with
      | [] => some ([], [])
      | d :: r' => if d = '"' then (csvLit r').map fun x => ('"' :: x.1, x.2) else some ([], d :: r')
    else (csvLit r).map fun x => (c :: x.1, x.2)

def octValue (c : Char) : Option Nat := if '0' ≤ c ∧ c ≤ '7' then some (c.toNat - 48) else none

/-- Escapes as in C, or in Lisp of Emacs. -/
def cLit : Lit
  | [] => none
  | c :: r =>
    if c = '"' then some ([], r)
    else if c = '\\' then
      match r with
      | [] => none
      | e :: r =>
        match octValue e with
        | some a =>
          match r with
          | e2 :: e3 :: r =>
            match octValue e2, octValue e3 with
            | some b, some c => (cLit r).map fun x => (Char.ofNat ((a * 8 + b) * 8 + c) :: x.1, x.2)
            | _, _ => none
          | _ => none
        | none =>
          (cLit r).map fun x =>
            ((if e = 'n' then '\n' else if e = 'r' then '\r' else if e = 't' then '\t' else e) :: x.1, x.2)
    else (cLit r).map fun x => (c :: x.1, x.2)

/-! ### JSON, one value per line -/

def isBlank (c : Char) : Bool := c = ' ' || c = '\t' || c = '\n' || c = '\r'

inductive JTok
  | p (c : Char)
  | s (text : Str)
  deriving DecidableEq

/-- Tokens; `n` is large enough if it is the length of the text, and one. -/
def jsonToks (lit : Lit) : (n : Nat) → Str → Option (List JTok)
  | 0, _ => none
  | n + 1, t =>
    match t.dropWhile isBlank with
    | [] => some []
    | c :: r =>
      if c = '"' then
        match lit r with
        | none => none
        | some (x, r) => (jsonToks lit n r).map (.s x :: ·)
      else if c ∈ c!"{}[]:," then (jsonToks lit n r).map (.p c :: ·)
      else none

/-- What there is in these tables. -/
inductive JValue
  | text (s : Str)
  | texts (l : List Str)
  deriving DecidableEq

/-- After the first element of a list of texts. -/
def jsonMore : List JTok → Option (List Str × List JTok)
  | .p c :: r =>
    if c = ']' then some ([], r)
    else if c = ',' then
      match r with
      | .s x :: r => (jsonMore r).map fun y => (x :: y.1, y.2)
      | _ => none
    else none
  | _ => none

/-- A text, or a list of texts. -/
def jsonValue : List JTok → Option (JValue × List JTok)
  | .s x :: r => some (.text x, r)
  | .p c :: r =>
    if c = '[' then
      match r with
      | .p c :: r => if c = ']' then some (.texts [], r) else none
      | .s x :: r => (jsonMore r).map fun y => (.texts (x :: y.1), y.2)
      | [] => none
    else none
  | [] => none

/-- Members of an object, up to the end of the line. -/
def jsonMembers : (n : Nat) → List JTok → Option (List (Str × JValue))
  | 0, _ => none
  | n + 1, .s k :: .p c :: r =>
    if c = ':' then
      match jsonValue r with
      | none => none
      | some (v, r) =>
        if r = [.p '}'] then some [(k, v)]
        else
          match r with
          | .p c :: r => if c = ',' then (jsonMembers n r).map ((k, v) :: ·) else none
          | _ => none
    else none
  | _, _ => none

/-- An object. -/
def jsonObject (lit : Lit) (line : Str) : Option (List (Str × JValue)) :=
  match jsonToks lit (line.length + 1) line with
  | some (.p c :: r) =>
    if c ≠ '{' then none
    else if r = [.p '}'] then some []
    else jsonMembers r.length r
  | _ => none

/-- Lines; all end in a newline. -/
def lines : Str → List Str
  | [] => []
  | c :: s =>
    if c = '\n' then [] :: lines s
    else match lines s with
      | [] => [[c]]
      | x :: xs => (c :: x) :: xs

def readJson (lit : Lit) (text : Str) : Option (List (List (Str × JValue))) :=
  (lines text).mapM (jsonObject lit)

/-! ### CSV -/

/-- One record, and what is behind it. -/
def csvRecord (lit : Lit) : (n : Nat) → Str → Option (List Str × Str)
  | 0, _ => none
  | n + 1, t =>
    let field := match t with
      | [] => none
      | c :: r =>
        if c = '"' then lit r
        else some (t.takeWhile (fun c => c ≠ ',' ∧ c ≠ '\n'), t.dropWhile (fun c => c ≠ ',' ∧ c ≠ '\n'))
    match field with
    | none => none
    | some (x, r) =>
      match r with
      | [] => some ([x], [])
      | c :: r =>
        if c = '\n' then some ([x], r)
        else if c = ',' then (csvRecord lit n r).map fun y => (x :: y.1, y.2)
        else none

def csvRecords (lit : Lit) : (n : Nat) → Str → Option (List (List Str))
  | _, [] => some []
  | 0, _ => none
  | n + 1, t =>
    match csvRecord lit t.length t with
    | none => none
    | some (x, r) => (csvRecords lit n r).map (x :: ·)

def readCsv (lit : Lit) (text : Str) : Option (List (List Str)) := csvRecords lit text.length text

/-! ### S-expressions

Parentheses, texts and symbols; they say what is inside of what. -/

inductive STok
  | opens
  | closes
  | text (s : Str)
  | symbol (s : Str)
  deriving DecidableEq

/-- Characters that end a symbol, or are special in it. -/
def sexprSpecial (c : Char) : Bool := isBlank c || c ∈ c!"()\"'`,;#\\|"

def sexprToks (lit : Lit) : (n : Nat) → Str → Option (List STok)
  | 0, _ => none
  | n + 1, t =>
    match t.dropWhile isBlank with
    | [] => some []
    | c :: r =>
      if c = '(' then (sexprToks lit n r).map (.opens :: ·)
      else if c = ')' then (sexprToks lit n r).map (.closes :: ·)
      else if c = '"' then
        match lit r with
        | none => none
        | some (x, r) => (sexprToks lit n r).map (.text x :: ·)
      else if sexprSpecial c then none
      else (sexprToks lit n (r.dropWhile (!sexprSpecial ·))).map (.symbol (c :: r.takeWhile (!sexprSpecial ·)) :: ·)

def readSexpr (lit : Lit) (text : Str) : Option (List STok) := sexprToks lit (text.length + 1) text

/-! ### What is in a table -/

/-- As many cells as there are columns. -/
def Fits (headers : List Str) : Op → Prop
  | .row cells => cells.length = headers.length
  | .repeated pre _ => pre.length + 1 = headers.length

/-- All cells. -/
def cellsOf : Op → List Str
  | .row cells => cells
  | .repeated pre values => pre ++ values

/-- Plain rows. -/
def rowsOf : Op → List (List Str)
  | .row cells => [cells]
  | .repeated pre values => values.map fun v => pre ++ [v]

/-- Values of the columns. -/
def valuesOf : Op → List JValue
  | .row cells => cells.map .text
  | .repeated pre values => pre.map .text ++ [.texts values]

def valueToks : JValue → List STok
  | .text s => [.text s]
  | .texts l => .opens :: l.map .text ++ [.closes]

/-- The row as a list. -/
def sexprRow (op : Op) : List STok := .opens :: (valuesOf op).flatMap valueToks ++ [.closes]

/-- The row as a property list. -/
def plistRow (headers : List Str) (op : Op) : List STok :=
  .opens :: (headers.zip (valuesOf op)).flatMap (fun m => .symbol (':' :: m.1) :: valueToks m.2) ++ [.closes]

/-- All characters are bytes. -/
def Bytes (s : Str) : Prop := ∀ c ∈ s, c.toNat < 256

/-- Texts that are escaped as in JSON. -/
def JsonPlain (s : Str) : Prop :=
  ∀ c ∈ s, c = '\n' ∨ c = '\r' ∨ c = '\t' ∨ (32 ≤ c.toNat ∧ c.toNat < 127 ∧ c ≠ '\'')

/-- Texts without anything to escape. -/
def CsvPlain (s : Str) : Prop :=
  ∀ c ∈ s, 32 ≤ c.toNat ∧ c.toNat < 127 ∧ c ≠ '\'' ∧ c ≠ '"' ∧ c ≠ '\\'

/-- Names that are symbols. -/
def Symbol (s : Str) : Prop := ∀ c ∈ s, sexprSpecial c = false

/-! ### Columns -/

/-- The cells of the row are in the line from the columns `starts` on, a blank at least between
them, and there is nothing else but blanks. -/
structure ColumnsAt (starts : List Nat) (row : List Str) (line : Str) : Prop where
  count : starts.length = row.length
  there : ∀ (k s : Nat) (x : Str), starts[k]? = some s → row[k]? = some x →
    s + x.length ≤ line.length ∧ (line.drop s).take x.length = x
  apart : ∀ (k s s' : Nat) (x : Str), starts[k]? = some s → starts[k + 1]? = some s' → row[k]? = some x →
    s + x.length < s'
  blank : ∀ (i : Nat) (c : Char), line[i]? = some c → c ≠ ' ' →
    ∃ (k s : Nat) (x : Str), starts[k]? = some s ∧ row[k]? = some x ∧ s ≤ i ∧ i < s + x.length

end TableSpec
end Bant
