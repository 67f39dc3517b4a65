import Verif.Model.Regex

/-!
Finding the include directives of a C++ source: `ExtractCCIncludes`, bant/tool/dwyu.cc:531-558.

The regular expression is

    (?m)("|^\s*#\s*include\s+"((\.\./)*[0-9a-zA-Z_/+-]+(\.[a-zA-Z]+)*)")

The two alternatives start with different characters. The second one matches at a given position
in at most one way (the path has no quote), so there is no choice to be modelled: the leftmost
match is the one at the first position at which there is one. After each match, the search goes
on in the text behind it, at the begin of which `^` matches again (`RE2::FindAndConsume`).
-/
namespace Bant
namespace Includes

/-- `\s` of RE2. -/
def isSpace (c : Char) : Bool :=
  c == ' ' || c == '\t' || c == '\n' || c == '\r' || c.toNat == 12

/-- `[0-9a-zA-Z_/+-]` -/
def isPathChar (c : Char) : Bool :=
  c.isAlphanum || c == '_' || c == '/' || c == '+' || c == '-'

/-- `(\.\./)*[0-9a-zA-Z_/+-]+(\.[a-zA-Z]+)*` -/
def pathRe : Regex :=
  .cat (.star (.cat (.lit '.') (.cat (.lit '.') (.lit '/'))))
    (.cat (.cat (.cls isPathChar) (.star (.cls isPathChar)))
      (.star (.cat (.lit '.') (.cat (.cls Char.isAlpha) (.star (.cls Char.isAlpha))))))

/-- The part of the second alternative after `#`: the number of characters before the path, and
the path. -/
def afterHash (s : Str) : Option (Nat × Str) :=
  let s1 := s.dropWhile isSpace
  if startsWith s1 c!"include" then
    let s2 := s1.drop 7
    let s3 := s2.dropWhile isSpace
    if s3.length = s2.length then none
    else
      match s3 with
      | '"' :: s4 =>
        let path := s4.takeWhile (· != '"')
        if path.length < s4.length && pathRe.fullMatch path then some (s.length - s4.length, path)
        else none
      | _ => none
  else none

/-- The second alternative: the number of characters before the path, and the path. -/
def matchInclude (s : Str) : Option (Nat × Str) :=
  match s.dropWhile isSpace with
  | '#' :: t => (afterHash t).map fun r => (s.length - t.length + r.1, r.2)
  | _ => none

/-- bant/tool/dwyu.cc:535-547: the loop. `skip` is the number of characters that are part of the
current match; `start`: `^` matches here; `nested` is `best_effort_in_nested_quote_toggle`; `off`
is the position in the content. The result are the paths with their positions. -/
def scan (skip : Nat) (start nested : Bool) (off : Nat) : Str → List (Nat × Str)
  | [] => []
  | c :: cs =>
    match skip with
    | k + 1 => scan k start nested (off + 1) cs
    | 0 =>
      match if start then matchInclude (c :: cs) else none with
      | some (n, path) =>
        let rest := scan (n + path.length) true nested (off + 1) cs
        if nested then rest else (off + n, path) :: rest
      | none =>
        if c = '"' then scan 0 true (!nested) (off + 1) cs
        else scan 0 (c = '\n') nested (off + 1) cs

/-- bant/tool/dwyu.cc:531-558, `ExtractCCIncludes`. -/
def extract (content : Str) : List (Nat × Str) := scan 0 true false 0 content

end Includes
end Bant
