import Verif.Model.TypesBazel

/-
Model of bant/util/table-printer.cc. What is written to the stream is the result; `none`: a `CHECK`
fails, or an access out of range. Widths are unbounded.
-/
namespace Bant
namespace Table

/-- bant/output-format.h:21-28 -/
inductive Format
  | native | sexpr | plist | json | csv | graphviz
  deriving DecidableEq

/-- What is done with a table: `AddRow`, `AddRowWithRepeatedLastColumn`. -/
inductive Op
  | row (cells : List Str)
  | repeated (pre : List Str) (values : List Str)
  deriving DecidableEq

/-! ### `absl::CEscape` (library, from its documentation) -/

def octDigit (n : Nat) : Char := Char.ofNat (48 + n % 8)

/-- One byte. -/
def cEscapeChar (c : Char) : Str :=
  if c = '\n' then c!"\\n"
  else if c = '\r' then c!"\\r"
  else if c = '\t' then c!"\\t"
  else if c = '"' then c!"\\\""
  else if c = '\'' then c!"\\'"
  else if c = '\\' then c!"\\\\"
  else if c.toNat < 32 ∨ 127 ≤ c.toNat then
    ['\\', octDigit (c.toNat / 64), octDigit (c.toNat / 8), octDigit c.toNat]
  else [c]

def cEscape (s : Str) : Str := s.flatMap cEscapeChar

/-- `"\"" << absl::CEscape(s) << "\""` -/
def quoted (s : Str) : Str := '"' :: cEscape s ++ ['"']

/-! ### Aligned text -/

/-- `StrFormat("%*s", -w, s)` -/
def padRight (w : Nat) (s : Str) : Str := s ++ List.replicate (w - s.length) ' '

/-- bant/util/table-printer.cc:46-48: widths, but for the last column. -/
def widen : List Nat → List Str → List Nat
  | w :: w' :: ws, c :: cs => max w c.length :: widen (w' :: ws) cs
  | ws, _ => ws

/-- bant/util/table-printer.cc:37-81, `AlignedTextColumnPrinter`. -/
structure Aligned where
  widths : List Nat
  buffer : List (List Str) := []

/-- bant/util/table-printer.cc:43-50, `AddRow`. Without columns, the bound of the loop is huge. -/
def Aligned.addRow (t : Aligned) (row : List Str) : Option Aligned :=
  if row.length ≠ t.widths.length then none
  else if t.widths = [] then none
  else some { widths := widen t.widths row, buffer := t.buffer ++ [row] }

/-- bant/util/table-printer.cc:53-64, `AddRowWithRepeatedLastColumn`. -/
def Aligned.addOp (t : Aligned) : Op → Option Aligned
  | .row cells => t.addRow cells
  | .repeated pre values =>
    if pre.length + 1 ≠ t.widths.length then none
    else values.foldlM (fun t v => t.addRow (pre ++ [v])) t

/-- bant/util/table-printer.cc:68-71: one line. -/
def alignedLine (widths : List Nat) (row : List Str) : Str :=
  (List.zipWith (fun w c => padRight (w + 1) c) widths row).flatten ++ ['\n']

/-- bant/util/table-printer.cc:66-73, `Finish`. -/
def Aligned.finish (t : Aligned) : Str := t.buffer.flatMap (alignedLine t.widths)

def aligned (headers : List Str) (ops : List Op) : Option Str :=
  (ops.foldlM Aligned.addOp { widths := List.replicate headers.length 0 }).map Aligned.finish

/-! ### S-expressions -/

/-- The name of a column in a property list. -/
def sexprKey (plist : Bool) (headers : List Str) (c : Nat) : Option Str :=
  if plist then (headers[c]?).map fun h => ':' :: h ++ [' '] else some []

/-- bant/util/table-printer.cc:94-98 and 109-121: cells, from column `c`. -/
def sexprCells (plist : Bool) (headers : List Str) : (c : Nat) → List Str → Option Str
  | _, [] => some []
  | c, x :: xs =>
    match sexprKey plist headers c, sexprCells plist headers (c + 1) xs with
    | some k, some r => some ((if c ≠ 0 then [' '] else []) ++ k ++ quoted x ++ r)
    | _, _ => none

/-- bant/util/table-printer.cc:92-134, what a row looks like, without what comes before the first
parenthesis. The indentation is the text before the inner list, and three. -/
def sexprOp (plist : Bool) (headers : List Str) : Op → Option Str
  | .row cells => (sexprCells plist headers 0 cells).map fun s => '(' :: s ++ [')']
  | .repeated pre values =>
    match sexprCells plist headers 0 pre, sexprKey plist headers pre.length with
    | some s, some k =>
      let indent := s.length + 1 + k.length
      some ('(' :: s ++ (if pre ≠ [] then [' '] else []) ++ k ++ ['('] ++
        (c!"\n" ++ List.replicate (indent + 3) ' ').intercalate (values.map quoted) ++ c!"))")
    | _, _ => none

def sexpr (plist : Bool) (headers : List Str) (ops : List Op) : Option Str :=
  (ops.mapM (sexprOp plist headers)).map fun rows => '(' :: (c!"\n ").intercalate rows ++ c!")\n"

/-! ### JSON -/

/-- bant/util/table-printer.cc:153-157 and 166-170: members, from column `c`. -/
def jsonCells (headers : List Str) : (c : Nat) → List Str → Option Str
  | _, [] => some []
  | c, x :: xs =>
    match headers[c]?, jsonCells headers (c + 1) xs with
    | some h, some r => some ((if c ≠ 0 then c!", " else []) ++ quoted h ++ c!": " ++ quoted x ++ r)
    | _, _ => none

/-- bant/util/table-printer.cc:151-180 -/
def jsonOp (headers : List Str) : Op → Option Str
  | .row cells => (jsonCells headers 0 cells).map fun s => '{' :: s ++ c!"}\n"
  | .repeated pre values =>
    match jsonCells headers 0 pre, headers[pre.length]? with
    | some s, some h =>
      some ('{' :: s ++ (if pre ≠ [] then c!", " else []) ++ quoted h ++ c!": [" ++
        (c!", ").intercalate (values.map quoted) ++ c!"]}\n")
    | _, _ => none

def json (headers : List Str) (ops : List Op) : Option Str :=
  (ops.mapM (jsonOp headers)).map List.flatten

/-! ### CSV -/

/-- bant/util/table-printer.cc:193-197 and 201-205. -/
def csvRow (cells : List Str) : Str := [','].intercalate (cells.map quoted) ++ ['\n']

/-- bant/util/table-printer.cc:200-219 -/
def csvOp : Op → Str
  | .row cells => csvRow cells
  | .repeated pre values => values.flatMap fun v => csvRow (pre ++ [v])

def csv (headers : List Str) (ops : List Op) : Str := csvRow headers ++ ops.flatMap csvOp

/-- bant/util/table-printer.cc:228-243, `TablePrinter::Create`; then the operations; then `Finish`. -/
def output (format : Format) (headers : List Str) (ops : List Op) : Option Str :=
  match format with
  | .sexpr => sexpr false headers ops
  | .plist => sexpr true headers ops
  | .json => json headers ops
  | .csv => some (csv headers ops)
  | .native | .graphviz => aligned headers ops

end Table
end Bant
