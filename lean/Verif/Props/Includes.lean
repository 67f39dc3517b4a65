import Verif.Lemmas.Includes

/-! # Include directives (C45) -/
namespace Bant
namespace Props
open Includes IncludeSpec

/-- **C45**, full statement: the reported headers are exactly the quoted paths of the lines that
are include directives, in order, each with its position. -/
def C45_statement : Prop :=
  ∀ content : Str, Listed 0 (splitAll '\n' content) (extract content)

/-- A line that is a directive is to be listed. -/
theorem Listed.directive_mem {off : Nat} {lines : List Str} {out : List (Nat × Str)}
    (h : Listed off lines out) : ∀ line ∈ lines, ∀ col path, Directive line col path → out ≠ [] := by
  induction h with
  | nil => intro l hl; cases hl
  | directive _ _ _ => intro l _ col path _ he; cases he
  | other hno _ ih =>
    intro l hl col path hd
    rcases List.mem_cons.1 hl with rfl | hl
    · exact absurd hd (hno col path)
    · exact ih l hl col path hd

/-- A lone quote, here in a comment, hides all later directives. -/
theorem C45_counterexample : ¬ C45_statement := by
  intro h
  have h1 := h c!"// 3\" wide\n#include \"a.h\"\n"
  have h2 : extract c!"// 3\" wide\n#include \"a.h\"\n" = [] := by decide +kernel
  rw [h2] at h1
  exact Listed.directive_mem h1 c!"#include \"a.h\"" (by decide) 10 c!"a.h"
    ⟨[], [], c!" ", [], by decide, (fun _ h => by cases h), (fun _ h => by cases h),
      (fun c hc => by simp at hc; simp [hc]), by decide, by decide⟩ rfl

/-- Other directives that are missed: no space before the quote; a digit in the extension. -/
example : extract c!"#include\"a.h\"\n#include \"b.h2\"\n#include \"c.v1.h\"\n" = [] := by decide +kernel

/-- Something that is no directive, but reported: it comes right after a quote. -/
example : extract c!"x(\"\"#include \"a.h\");" = [(14, c!"a.h")] := by decide +kernel

/-- **C45**, if all lines are tidy: quotes are balanced within each line, no quote is followed by
`#`, directives have a space before the quote and a path of the usual form. -/
theorem C45_tidy_partial (content : Str) (ht : ∀ line ∈ splitAll '\n' content, Tidy line) :
    Listed 0 (splitAll '\n' content) (extract content) :=
  extract_listed content ht

/-- **C45**, any text: whatever is reported is a quoted path of the usual form behind `#include`,
at the reported position; the reported paths are in order and do not overlap. -/
theorem C45_sound_partial (content : Str) :
    (∀ pos path, (pos, path) ∈ extract content →
      ∃ x b c rest, content = x ++ c!"#" ++ b ++ c!"include" ++ c ++ c!"\"" ++ path ++ c!"\"" ++ rest ∧
        Blank b ∧ Blank c ∧ c ≠ [] ∧ PathForm path ∧
        pos = (x ++ c!"#" ++ b ++ c!"include" ++ c ++ c!"\"").length) ∧
      (extract content).Pairwise fun r r' => r.1 + r.2.length < r'.1 := by
  unfold extract
  rw [(scan_eq _ content rfl false 0).1]
  refine ⟨fun pos path h => ?_, scan2_ordered _ _ _ _ _⟩
  obtain ⟨x, b, c, rest, h1, h2, h3, h4, h5, _, h7⟩ := scan2_sound _ _ _ _ _ _ h
  exact ⟨x, b, c, rest, h1, h2, h3, h4, h5, by simpa using h7⟩

/-- **C45**, an exact account for any text: a directive is reported if and only if its path is of the usual form with
white space before it, there is only white space before the `#` on its line or since the last quote, and the number of
quotes in all the text before it is even. -/
theorem C45_exact (content : Str) (pos : Nat) (path : Str) :
    (pos, path) ∈ extract content ↔
      ∃ x b c rest, content = x ++ c!"#" ++ b ++ c!"include" ++ c ++ c!"\"" ++ path ++ c!"\"" ++ rest ∧
        Blank b ∧ Blank c ∧ c ≠ [] ∧ PathForm path ∧ LineBegin x ∧ x.count '"' % 2 = 0 ∧
        pos = (x ++ c!"#" ++ b ++ c!"include" ++ c ++ c!"\"").length := by
  unfold extract
  rw [(scan_eq _ content rfl false 0).1, scan2_exact _ content rfl]
  constructor
  · rintro ⟨x, n, ⟨b, c, rest, h1, h2, h3, h4, h5, h6⟩, h7, h8, h9⟩
    refine ⟨x, b, c, rest, h1, h2, h3, h4, h5, ?_, by simpa using h8, by omega⟩
    simpa [Fresh, LineBegin] using h7
  · rintro ⟨x, b, c, rest, h1, h2, h3, h4, h5, h7, h8, h9⟩
    refine ⟨x, pos, ⟨b, c, rest, h1, h2, h3, h4, h5, h9⟩, ?_, by simpa using h8, by omega⟩
    simpa [Fresh, LineBegin] using h7

/-- In a string over two lines nothing is found; behind it, directives are. -/
example : extract c!"s=\"x\n#include \"a.h\"\n\"\n#include \"b.h\"\n" = [(32, c!"b.h")] := by decide +kernel

/-- Which lines are tidy: any without `#` that has balanced quotes; … -/
theorem C45_tidy_plain (line : Str) (h : '#' ∉ line) (hq : line.count '"' % 2 = 0) : Tidy line :=
  tidy_plain h hq

/-- … include directives, also indented, with a comment behind them; … -/
theorem C45_tidy_include (a b c path rest : Str) (ha : Blank a) (hb : Blank b) (hc : Blank c)
    (hne : c ≠ []) (hp : PathForm path) (hr : '#' ∉ rest) (hq : rest.count '"' % 2 = 0) :
    Tidy (a ++ c!"#" ++ b ++ c!"include" ++ c ++ c!"\"" ++ path ++ c!"\"" ++ rest) :=
  tidy_include ha hb hc hne hp hr hq

/-- … and other directives. -/
theorem C45_tidy_directive (a b t : Str) (x : Char) (ha : Blank a) (hb : Blank b)
    (hx : ¬ Blank [x]) (hi : ¬ c!"include" <+: x :: t) (hn : '#' ∉ x :: t)
    (hq : (x :: t).count '"' % 2 = 0) : Tidy (a ++ c!"#" ++ b ++ x :: t) := by
  refine tidy_directive ha hb ?_ ?_ hn hq
  · cases h : isSpace x with
    | false => rfl
    | true =>
      refine absurd (blank_iff.2 ?_) hx
      intro y hy
      rw [List.mem_singleton] at hy
      rw [hy]; exact h
  · intro h
    exact hi (by simpa [startsWith] using h)

/-- A source with a guard, an indented directive, a system header and a string. -/
def sourceExample : Str :=
  c!"#ifndef A\n#include \"../b/c-d.pb.h\"  // x\n  #  include \"e.h\"\n#include <vector>\nf(\"#include\");"

example : extract sourceExample = [(20, c!"../b/c-d.pb.h"), (55, c!"e.h")] := by decide +kernel

/-- `f("#include")` is not tidy, the others are. -/
example : ∀ line ∈ (splitAll '\n' sourceExample).take 4, Tidy line := by
  have hs : Blank c!" " := by intro c hc; simp at hc; simp [hc]
  have he : Blank [] := fun _ h => by cases h
  intro line hl
  have : line = c!"#ifndef A" ∨ line = c!"#include \"../b/c-d.pb.h\"  // x" ∨
      line = c!"  #  include \"e.h\"" ∨ line = c!"#include <vector>" := by
    simpa [sourceExample, splitAll] using hl
  rcases this with rfl | rfl | rfl | rfl
  · exact C45_tidy_directive [] [] c!"fndef A" 'i' he he (by
      intro h; have := h 'i' (by simp); revert this; decide) (by decide) (by decide) (by decide)
  · exact C45_tidy_include [] [] c!" " c!"../b/c-d.pb.h" c!"  // x" he he hs (by decide)
      ⟨1, c!"b/c-d", [c!"pb", c!"h"], by decide, by decide, by decide, by decide⟩ (by decide) (by decide)
  · have hs2 : Blank c!"  " := by intro c hc; simp at hc; simp [hc]
    exact C45_tidy_include c!"  " c!"  " c!" " c!"e.h" [] hs2 hs2 hs (by decide)
      ⟨0, c!"e", [c!"h"], by decide, by decide, by decide, by decide⟩ (by decide) (by decide)
  · -- no quotes: the directive of a system header
    refine ⟨?_, by decide, ?_, ?_, ?_⟩
    · intro a b c path rest h
      exact absurd (show '"' ∈ c!"#include <vector>" by rw [h]; simp) (by decide)
    · intro a b c h
      exact absurd (show '"' ∈ c!"#include <vector>" by rw [h]; simp) (by decide)
    · intro a b h ha hb
      have : '<' ∈ a ++ c!"#" ++ b := by rw [← h]; decide
      simp only [List.mem_append] at this
      rcases this with (h1 | h1) | h1
      · exact blank_no ha (by decide) h1
      · revert h1; decide
      · exact blank_no hb (by decide) h1
    · intro a b c h ha hb hc
      have : '<' ∈ a ++ c!"#" ++ b ++ c!"include" ++ c := by rw [← h]; decide
      simp only [List.mem_append] at this
      rcases this with (((h1 | h1) | h1) | h1) | h1
      · exact blank_no ha (by decide) h1
      · revert h1; decide
      · exact blank_no hb (by decide) h1
      · revert h1; decide
      · exact blank_no hc (by decide) h1

end Props
end Bant
