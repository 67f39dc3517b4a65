import Verif.Base.Str

/-
The part of RE2 (an external library) that bant relies on: the regular expression
syntax occurring in the strings assembled in bant/types-bazel.cc:202-217 and
bant/util/glob-match-builder.cc:55-123, and its meaning under `RE2::FullMatch`.

RE2 itself is not part of the repository; the semantics here is from its
documentation (trusted): `.` is any character but newline, `[^/]` any character but
a slash, `\c` for a punctuation character stands for `c`, `\x00` for the NUL
character; `*`, `?`, `|` and groups as usual. `FullMatch` is anchored on both ends.
Syntax outside of this fragment makes `re2Parse` return `none`; this means "not
modelled", RE2 may or may not accept it.
-/
namespace Bant

inductive Regex where
  | eps
  | cls (p : Char → Bool)
  | cat (a b : Regex)
  | alt (a b : Regex)
  | star (a : Regex)
  | opt (a : Regex)

namespace Regex

/-- Meaning of a regular expression: the language of strings it matches fully. -/
inductive Matches : Regex → Str → Prop where
  | eps : Matches eps []
  | cls {p : Char → Bool} {c : Char} : p c = true → Matches (cls p) [c]
  | cat {a b : Regex} {s t : Str} : Matches a s → Matches b t → Matches (cat a b) (s ++ t)
  | altL {a b : Regex} {s : Str} : Matches a s → Matches (alt a b) s
  | altR {a b : Regex} {s : Str} : Matches b s → Matches (alt a b) s
  | starNil {a : Regex} : Matches (star a) []
  | starCons {a : Regex} {s t : Str} :
      Matches a s → Matches (star a) t → Matches (star a) (s ++ t)
  | optNone {a : Regex} : Matches (opt a) []
  | optSome {a : Regex} {s : Str} : Matches a s → Matches (opt a) s

/-- Does it match the empty string? -/
def nullable : Regex → Bool
  | eps => true
  | cls _ => false
  | cat a b => a.nullable && b.nullable
  | alt a b => a.nullable || b.nullable
  | star _ => true
  | opt _ => true

/-- Never matches. -/
def void : Regex := cls fun _ => false

/-- Brzozowski derivative. -/
def deriv : Regex → Char → Regex
  | eps, _ => void
  | cls p, c => if p c then eps else void
  | cat a b, c =>
    if a.nullable then alt (cat (a.deriv c) b) (b.deriv c) else cat (a.deriv c) b
  | alt a b, c => alt (a.deriv c) (b.deriv c)
  | star a, c => cat (a.deriv c) (star a)
  | opt a, c => a.deriv c

/-- `RE2::FullMatch(s, re)`, computable. -/
def fullMatch : Regex → Str → Bool
  | r, [] => r.nullable
  | r, c :: cs => (r.deriv c).fullMatch cs

/-- Literal character. -/
def lit (c : Char) : Regex := cls (· == c)
/-- `.` -/
def dot : Regex := cls (· != '\n')
/-- `[^/]` -/
def notSlash : Regex := cls (· != '/')

end Regex

/-- Tokens of the regular expression syntax. -/
inductive ReTok where
  | atom (r : Regex)
  | star
  | quest
  | bar
  | lparen
  | rparen

/-- Characters that stand for themselves in RE2 syntax, wherever they are. (A closing bracket or brace does, too, if
there is none to close; that is not in the modelled fragment.) -/
def rePlain (c : Char) : Bool :=
  c ≠ '\\' && c ≠ '.' && c ≠ '+' && c ≠ '*' && c ≠ '?' && c ≠ '(' && c ≠ ')' && c ≠ '|' && c ≠ '[' && c ≠ ']' &&
  c ≠ '{' && c ≠ '}' && c ≠ '^' && c ≠ '$'

/-- `\c` stands for `c` itself: RE2 accepts that for any ASCII punctuation (and for the
other ASCII characters which `QuoteMeta` escapes, e.g. space and control characters). -/
def reEscapable (c : Char) : Bool :=
  c.toNat < 128 && !c.isAlphanum && c != '_' && c.toNat != 0

/-- Tokens that consist of one character. -/
def reSimple (c : Char) : Option ReTok :=
  if c = '.' then some (.atom .dot)
  else if c = '*' then some .star
  else if c = '?' then some .quest
  else if c = '|' then some .bar
  else if c = '(' then some .lparen
  else if c = ')' then some .rparen
  else if rePlain c then some (.atom (.lit c))
  else none

/-- Split a regular expression string into tokens. -/
def reTokens : Str → Option (List ReTok)
  | [] => some []
  | c :: s =>
    if c = '\\' then
      match s with
      | [] => none
      | d :: s1 =>
        if reEscapable d then (reTokens s1).map (.atom (.lit d) :: ·)
        else match s1 with
          | d2 :: d3 :: s2 =>
            if d = 'x' ∧ d2 = '0' ∧ d3 = '0' then
              (reTokens s2).map (.atom (.lit (Char.ofNat 0)) :: ·)
            else none
          | _ => none
    else if c = '[' then
      match s with
      | d1 :: d2 :: d3 :: s1 =>
        if d1 = '^' ∧ d2 = '/' ∧ d3 = ']' then (reTokens s1).map (.atom .notSlash :: ·)
        else none
      | _ => none
    else match reSimple c with
      | some t => (reTokens s).map (t :: ·)
      | none => none

/-- One open group: the alternatives already complete (if any) and the pieces of the
current alternative, last one first. -/
structure ReFrame where
  alts : Option Regex
  cur : List Regex

/-- Concatenation of pieces given last one first. -/
def ReFrame.catRev : List Regex → Regex
  | [] => .eps
  | [r] => r
  | r :: rs => .cat (catRev rs) r

def ReFrame.close (f : ReFrame) : Regex :=
  match f.alts with
  | none => catRev f.cur
  | some a => .alt a (catRev f.cur)

/-- Process one token; the head of the stack is the innermost open group.
`**`, `*?` and `??` have special meanings (or are errors) in RE2 and never follow
an atom in this fragment; they are rejected by `reStep` through `ReFrame.cur`
holding only complete atoms. -/
def reStep (stack : List ReFrame) (lastIsAtom : Bool) (t : ReTok) :
    Option (List ReFrame × Bool) :=
  match t, stack with
  | .atom r, f :: fs => some ({ f with cur := r :: f.cur } :: fs, true)
  | .star, ⟨alts, r :: rs⟩ :: fs =>
    if lastIsAtom then some (⟨alts, .star r :: rs⟩ :: fs, false) else none
  | .quest, ⟨alts, r :: rs⟩ :: fs =>
    if lastIsAtom then some (⟨alts, .opt r :: rs⟩ :: fs, false) else none
  | .bar, f :: fs => some (⟨some f.close, []⟩ :: fs, false)
  | .lparen, fs => some (⟨none, []⟩ :: fs, false)
  | .rparen, f :: g :: fs => some ({ g with cur := f.close :: g.cur } :: fs, true)
  | _, _ => none

def reRun : List ReFrame → Bool → List ReTok → Option (List ReFrame × Bool)
  | st, b, [] => some (st, b)
  | st, b, t :: ts =>
    match reStep st b t with
    | none => none
    | some (st', b') => reRun st' b' ts

/-- Parse a regular expression string (of the modelled fragment). -/
def re2Parse (s : Str) : Option Regex :=
  match reTokens s with
  | none => none
  | some ts =>
    match reRun [⟨none, []⟩] false ts with
    | some ([f], _) => some f.close
    | _ => none

/-- `RE2::QuoteMeta`: backslash before every ASCII character that is not a letter,
digit or underscore; NUL becomes `\x00`. -/
def quoteChar (c : Char) : Str :=
  if c.isAlphanum || c == '_' || c.toNat ≥ 128 then [c]
  else if c.toNat = 0 then c!"\\x00"
  else ['\\', c]

def quoteMeta (s : Str) : Str := s.flatMap quoteChar

end Bant
