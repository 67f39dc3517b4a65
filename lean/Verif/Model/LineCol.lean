import Verif.Base.Str

/-
Model of bant/frontend/linecolumn-map.{h,cc}, bant/frontend/named-content.{h,cc} and
the printing in bant/frontend/source-locator.cc.

A position (`std::string_view::const_iterator` into the content) is modelled as the
byte offset from the begin of the content. A failing `CHECK` is the result `none`.
`int` overflow of line and column numbers is not modelled.
-/
namespace Bant

/-- bant/frontend/source-locator.h:27-32, `struct LineColumn` (zero based). -/
structure LineColumn where
  line : Nat
  col : Nat
deriving DecidableEq, Repr

/-- bant/frontend/source-locator.h:37-42, `struct LineColumnRange`. -/
structure LineColumnRange where
  start : LineColumn
  end_ : LineColumn
deriving DecidableEq, Repr

/-- bant/frontend/linecolumn-map.h:54-56: `line_map_`, the line begin offsets. -/
abbrev LineMap := List Nat

namespace LineMap

/-- bant/frontend/linecolumn-map.cc:28-31, `PushNewline`; `none` if the `CHECK` fails. -/
def pushNewline (m : LineMap) (p : Nat) : Option LineMap :=
  match m.getLast? with
  | none => some (m ++ [p])
  | some b => if b ≤ p then some (m ++ [p]) else none

/-- bant/frontend/linecolumn-map.cc:33-41, `GetPos`. `std::upper_bound` on the sorted
vector is the number of leading elements that are `≤ pos`. -/
def getPos (m : LineMap) (pos : Nat) : Option LineColumn :=
  let k := (m.takeWhile (fun b => b ≤ pos)).length
  if k = 0 then none
  else match m[k - 1]? with
    | some b => some ⟨k - 1, pos - b⟩
    | none => none

/-- bant/frontend/linecolumn-map.cc:43-48, `GetRange` of the text `[b, e)`. -/
def getRange (m : LineMap) (b e : Nat) : Option LineColumnRange :=
  match getPos m b, getPos m e with
  | some s, some t => some ⟨s, t⟩
  | _, _ => none

/-- bant/frontend/linecolumn-map.cc:54-59, the loop of `InitializeFromStringView`:
`rest` is the content from offset `p` on. The `find_first_of` of the C++ code is the
character by character search here. -/
def initLoop : Str → Nat → LineMap → Option LineMap
  | [], _, m => some m
  | c :: rest, p, m =>
    if c = '\n' then
      match pushNewline m (p + 1) with
      | none => none
      | some m' => initLoop rest (p + 1) m'
    else initLoop rest (p + 1) m

/-- bant/frontend/linecolumn-map.cc:50-60, `InitializeFromStringView` on an empty map
(the `CHECK(empty())` is the precondition that it is called once). -/
def initFromView (content : Str) : Option LineMap :=
  match pushNewline [] 0 with
  | none => none
  | some m => initLoop content 0 m

end LineMap

/-- bant/frontend/named-content.cc:40-43: walk back to the start of the line. -/
def lineStart (content : Str) : Nat → Nat
  | 0 => 0
  | b + 1 => if content[b]? = some '\n' then b + 1 else lineStart content b

/-- bant/frontend/named-content.cc:46-49: number of characters up to the newline. -/
def lineRest : Str → Nat
  | [] => 0
  | c :: cs => if c = '\n' then 0 else lineRest cs + 1

/-- bant/frontend/named-content.cc:34-52, `GetSurroundingLine` of the text `[b, e)`:
the offsets of the line; `none` if the `CHECK` fails. -/
def getSurroundingLine (content : Str) (b e : Nat) : Option (Nat × Nat) :=
  if e ≤ content.length then some (lineStart content b, e + lineRest (content.drop e))
  else none

/-- bant/frontend/named-content.cc:28-32, `NamedLineIndexedContent::GetLocation` (without
the name): `none` if a `CHECK` fails. -/
def getLocation (content : Str) (m : LineMap) (b e : Nat) : Option LineColumnRange :=
  if e ≤ content.length then m.getRange b e else none

/-! Printing, bant/frontend/source-locator.cc -/

/-- `out << int` -/
def showInt (i : Int) : Str := (toString i).toList

/-- bant/frontend/source-locator.cc:26-29; the column is an `int` as it can be -1. -/
def showLineColumn (line col : Int) : Str := showInt (line + 1) ++ [':'] ++ showInt (col + 1)

/-- bant/frontend/source-locator.cc:31-46. -/
def showRange (r : LineColumnRange) : Str :=
  let rightCol : Int := (r.end_.col : Int) - 1
  showLineColumn r.start.line r.start.col ++
    (if r.start.line = r.end_.line then
      (if rightCol > r.start.col then '-' :: showInt (rightCol + 1) else [])
    else ':' :: showLineColumn r.end_.line rightCol) ++ [':']

end Bant
