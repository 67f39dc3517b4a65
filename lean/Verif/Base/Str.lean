/-
Byte strings and the `std::string_view` / abseil helpers used all over the code.

`std::string` and `std::string_view` are modelled as `List Char`; a `Char` stands
for one byte (simplification: the theorems also cover characters that need more
than one byte, which the C++ code would see as several bytes).
-/
namespace Bant

/-- `std::string` / `std::string_view` contents. -/
abbrev Str := List Char

open Lean in
/-- `c!"abc"` is the list of characters `['a', 'b', 'c']`. -/
macro:max "c!" s:str : term => do
  let cs := s.getString.toList.toArray.map fun c => Syntax.mkCharLit c
  `(([$[$cs],*] : Str))

/-- `s.substr(0, s.find_first_of(c))`: everything before the first `c`
(all of `s` if there is none). -/
def beforeFirst (c : Char) (s : Str) : Str := s.takeWhile (· != c)

/-- `s.substr(s.find_first_of(c))`, empty if there is no `c`. -/
def fromFirst (c : Char) (s : Str) : Str := s.dropWhile (· != c)

/-- Split at the last `c`: `(before, after)`, `none` if `c` does not occur.
Models `find_last_of(c)` together with the two `substr` calls around it. -/
def splitLast (c : Char) : Str → Option (Str × Str)
  | [] => none
  | x :: xs =>
    match splitLast c xs with
    | some (a, b) => some (x :: a, b)
    | none => if x = c then some ([], xs) else none

/-- `s.substr(0, s.find_last_of(c))`; with `npos` this is all of `s`. -/
def beforeLast (c : Char) (s : Str) : Str :=
  match splitLast c s with
  | some (a, _) => a
  | none => s

/-- `absl::StrSplit(s, c)`: never empty, empty pieces are kept. -/
def splitAll (c : Char) : Str → List Str
  | [] => [[]]
  | x :: xs =>
    if x = c then [] :: splitAll c xs
    else match splitAll c xs with
      | [] => [[x]]
      | p :: ps => (x :: p) :: ps

/-- `while (!s.empty() && s.front() == c) s.remove_prefix(1);` -/
def stripFront (c : Char) (s : Str) : Str := s.dropWhile (· == c)

/-- `while (!s.empty() && s.back() == c) s.remove_suffix(1);` -/
def stripBack (c : Char) : Str → Str
  | [] => []
  | x :: xs =>
    match stripBack c xs with
    | [] => if x = c then [] else [x]
    | ys => x :: ys

/-- `absl::StrContains(s, "cc")` for a doubled character. -/
def containsDouble (c : Char) : Str → Bool
  | [] => false
  | [_] => false
  | x :: y :: xs => (x == c && y == c) || containsDouble c (y :: xs)

/-- `s.ends_with(suffix)` -/
def endsWith (s suffix : Str) : Bool := suffix.isSuffixOf s

/-- `s.starts_with(prefix)` -/
def startsWith (s pre : Str) : Bool := pre.isPrefixOf s

/-- `s.contains(c)` -/
def hasChar (s : Str) (c : Char) : Bool := s.contains c

end Bant
