import Verif.Model.FileUtils

/-! Specification of file patterns (C35, C36) and of `glob()` (C69). -/
namespace Bant
namespace GlobSpec

/-! ### The documented meaning

A pattern consists of segments, with slashes in between. `*` stands for anything within a segment, the
segment `**` for any number of segments. -/

/-- The parts between slashes. -/
def segments : Str → List Str
  | [] => [[]]
  | c :: s =>
    if c = '/' then [] :: segments s
    else match segments s with
      | [] => [[c]]
      | x :: xs => (c :: x) :: xs

/-- A segment of a pattern matches a segment of a path. -/
inductive SegMatch : Str → Str → Prop
  | nil : SegMatch [] []
  | star {p u s} : SegMatch p s → SegMatch ('*' :: p) (u ++ s)
  | char {c p s} : c ≠ '*' → SegMatch p s → SegMatch (c :: p) (c :: s)

/-- The segments of a pattern match the segments of a path. -/
inductive PathMatch : List Str → List Str → Prop
  | nil : PathMatch [] []
  | none {ps fs} : PathMatch ps fs → PathMatch (c!"**" :: ps) fs
  | more {ps x fs} : PathMatch (c!"**" :: ps) fs → PathMatch (c!"**" :: ps) (x :: fs)
  | seg {p ps x fs} : p ≠ c!"**" → SegMatch p x → PathMatch ps fs → PathMatch (p :: ps) (x :: fs)

/-- The pattern matches the path. -/
def Means (p f : Str) : Prop := PathMatch (segments p) (segments f)

/-- `**` is there as a segment only; `glob()` is an error for other patterns. -/
def Proper (p : Str) : Prop := ∀ s ∈ segments p, c!"**" <:+: s → s = c!"**"

/-! ### What is implemented

`**/` stands for any text (but newlines), any other `*` for text without slashes. -/

inductive Accepts : Str → Str → Prop
  | nil : Accepts [] []
  | deep {p u s} : '\n' ∉ u → Accepts p s → Accepts (c!"**/" ++ p) (u ++ s)
  | star {p u s} : ¬ c!"*/" <+: p → '/' ∉ u → Accepts p s → Accepts ('*' :: p) (u ++ s)
  | char {c p s} : c ≠ '*' → Accepts p s → Accepts (c :: p) (c :: s)

/-- The files that patterns ask for. -/
def Chosen (incl excl : List Str) (f : Str) : Prop :=
  (∃ p ∈ incl, Accepts p f) ∧ ∀ p ∈ excl, ¬ Accepts p f

end GlobSpec
end Bant
