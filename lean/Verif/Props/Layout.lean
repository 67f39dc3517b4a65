import Verif.Lemmas.LayoutCommand

/-! Layout and comments do not matter (C96). -/
namespace Bant
namespace Props
open Commands Cli Query Rules Headers GraphSpec CommandSpec LayoutSpec Layout Parser

/-- **C96**, full statement: two texts without lexical errors, with the same tokens but other white space and
comments between them, are read alike: the tree is the same, and there are errors at the same tokens. -/
def C96_statement : Prop :=
  ∀ content content' : Str, SameButLayout (fun _ _ => True) content content' →
    ∃ tree st st', parseFile content = some (tree, st) ∧ parseFile content' = some (tree, st') ∧
      SameTokens st.errs st'.errs

/-- **C96** for the scanner: the tokens are the same, unless the new text has `in` after `not` and white space. -/
theorem C96_tokens_partial {content content' : Str} {ts : List Token} (hts : TokensOf content ts)
    (herr : ∀ t ∈ ts, t.type ≠ .error) (h : Relaid NotThenIn 0 ts content content') :
    ∃ ts', TokensOf content' ts' ∧ SameTokens ts ts' :=
  relaid_tokens h hts herr

/-- **C96** for the parser. -/
theorem C96_tree_partial {content content' : Str} (h : SameButLayout NotThenIn content content') :
    ∃ tree st st', parseFile content = some (tree, st) ∧ parseFile content' = some (tree, st') ∧
      SameTokens st.errs st'.errs := by
  obtain ⟨ts, h1, h2, h3⟩ := h
  obtain ⟨ts', h4, h5⟩ := relaid_tokens h3 h1 h2
  exact parse_same h1 h4 h5

/-- The parser depends on the texts of tokens only, and on new lines in front of `[`: whatever the texts are. -/
theorem C96_parser {content content' : Str} {ts ts' : List Token} (h : TokensOf content ts)
    (h' : TokensOf content' ts') (hs : SameTokens ts ts') :
    ∃ tree st st', parseFile content = some (tree, st) ∧ parseFile content' = some (tree, st') ∧
      SameTokens st.errs st'.errs :=
  parse_same h h' hs

/-- **C96** for the commands: if the BUILD and workspace files are written with other layout and comments, and other
files in whatever way, then a command prints the same with the same status. `dwyu` also looks at what is
included by sources and at comments about dependencies; some commands print the places of things. -/
theorem C96_commands_partial {m m' : Machine} {flags : Flags} {cmd : Command} {pattern : BazelPattern}
    (h : SameProject m m') (hdwyu : cmd = .dwyu → SameSources m m') (hplaces : SamePlaces m m' cmd) :
    runCommand m' flags cmd pattern = runCommand m flags cmd pattern :=
  run_trees (sameProject_trees h) hdwyu hplaces

/-! ### Examples -/

/-- White space and comments. -/
def gapB (atEof : Bool) : Bool → Str → Bool
  | inComment, [] => !inComment || atEof
  | true, c :: cs => if c = '\n' then gapB atEof false cs else gapB atEof true cs
  | false, c :: cs =>
    if c = '#' then gapB atEof true cs
    else [' ', '\t', '\n', '\x0b', '\x0c', '\r', '\\'].contains c && gapB atEof false cs

theorem gapB_sound {atEof : Bool} {s : Str} :
    (gapB atEof false s = true → Gap (atEof = true) s) ∧
    (gapB atEof true s = true → Gap (atEof = true) ('#' :: s)) := by
  induction s with
  | nil =>
    constructor
    · intro _; exact Gap.nil
    · intro h
      exact Gap.lastComment (by simpa [gapB] using h) (by simp)
  | cons c cs ih =>
    constructor
    · intro h
      rw [gapB] at h
      split at h
      · next hc => subst hc; exact ih.2 h
      · simp only [Bool.and_eq_true] at h
        exact Gap.blank (by simpa using h.1) (ih.1 h.2)
    · intro h
      rw [gapB] at h
      split at h
      · next hc =>
        subst hc
        exact Gap.comment (body := []) (by simp) (ih.1 h)
      · next hc =>
        have := ih.2 h
        cases this with
        | blank hb _ => simp at hb
        | @comment body s hb hs =>
          have e : '#' :: c :: (body ++ '\n' :: s) = '#' :: ((c :: body) ++ '\n' :: s) := rfl
          rw [e]
          exact Gap.comment (by simp [hb, Ne.symm hc]) hs
        | lastComment he hb => exact Gap.lastComment he (by simp [hb, Ne.symm hc])

theorem gap_imp {P Q : Prop} (hpq : P → Q) {s : Str} (h : Gap P s) : Gap Q s := by
  induction h with
  | nil => exact Gap.nil
  | blank hb _ ih => exact Gap.blank hb ih
  | comment hb _ ih => exact Gap.comment hb ih
  | lastComment he hb => exact Gap.lastComment (hpq he) hb

/-- The second text is the first with other gaps, that are given. -/
def relaidB (okB : Token → Bool) (p : Nat) : List (Token × Str) → Str → Str → Bool
  | [], g, g' => gapB true false g && gapB true false g'
  | (t, g') :: ts, c, c' =>
    gapB false false (c.take (t.start - p)) && gapB false false g' &&
    decide (t.start = p + (c.take (t.start - p)).length) &&
    (!g'.isEmpty || (c.take (t.start - p)).isEmpty) &&
    (decide (t.type ≠ .op '[') || ((c.take (t.start - p)).contains '\n' == g'.contains '\n')) &&
    okB t &&
    decide (c = c.take (t.start - p) ++ t.text ++ c.drop (t.start - p + t.text.length)) &&
    decide (c' = g' ++ t.text ++ c'.drop (g'.length + t.text.length)) &&
    relaidB okB (t.start + t.text.length) ts (c.drop (t.start - p + t.text.length)) (c'.drop (g'.length + t.text.length))

theorem relaidB_sound {okB : Token → Bool} {ok : Token → Str → Prop} (hok : ∀ t rest, okB t = true → ok t rest) :
    ∀ {ts : List (Token × Str)} {p : Nat} {c c' : Str}, relaidB okB p ts c c' = true →
    Relaid ok p (ts.map (·.1)) c c' := by
  intro ts
  induction ts with
  | nil =>
    intro p c c' h
    simp only [relaidB, Bool.and_eq_true] at h
    exact Relaid.done (gap_imp (fun _ => trivial) (gapB_sound.1 h.1)) (gap_imp (fun _ => trivial) (gapB_sound.1 h.2))
  | cons x ts ih =>
    intro p c c' h
    obtain ⟨t, g'⟩ := x
    simp only [relaidB, Bool.and_eq_true, decide_eq_true_eq, Bool.or_eq_true, Bool.not_eq_true', beq_iff_eq] at h
    obtain ⟨⟨⟨⟨⟨⟨⟨⟨h1, h2⟩, h3⟩, h4⟩, h5⟩, h6⟩, h7⟩, h8⟩, h9⟩ := h
    rw [List.map_cons, h7, h8]
    refine Relaid.token (gap_imp (by simp) (gapB_sound.1 h1)) (gap_imp (by simp) (gapB_sound.1 h2)) h3 ?_ ?_ ?_ ?_
    · intro hg
      rcases h4 with h4 | h4
      · subst hg; cases h4
      · simpa using h4
    · intro hb
      rcases h5 with h5 | h5
      · exact absurd hb h5
      · have h5 : ('\n' ∈ c.take (t.start - p)) = ('\n' ∈ g') := by
          have := congrArg (· = true) h5
          simpa using this
        rw [h5]
    · exact hok _ _ h6
    · exact ih h9

/-- The gaps in front of tokens. -/
def gapsOf (p : Nat) : List Token → Str → List Str
  | [], _ => []
  | t :: ts, c => c.take (t.start - p) :: gapsOf (t.start + t.text.length) ts (c.drop (t.start - p + t.text.length))

theorem sameButLayout_of {okB : Token → Bool} {ok : Token → Str → Prop} (hok : ∀ t rest, okB t = true → ok t rest)
    {c c' : Str} (gaps : List Str) (hlen : gaps.length = (initState c).toks.length)
    (herr : (initState c).toks.all (fun t => t.type ≠ .error) = true)
    (h : relaidB okB 0 ((initState c).toks.zip gaps) c c' = true) : SameButLayout ok c c' := by
  obtain ⟨ts, hts, _⟩ := tokensOf_exists c
  have e := initState_toks hts
  refine ⟨ts, hts, ?_, ?_⟩
  · rw [e] at herr
    simpa using herr
  · have := relaidB_sound hok h
    rw [e, List.map_fst_zip (by rw [← e]; omega)] at this
    exact this

/-- A word other than `not`. -/
def noNot (t : Token) : Bool := t.text ≠ c!"not"

theorem noNot_ok (t : Token) (rest : Str) (h : noNot t = true) : NotThenIn t rest := by
  intro h'; simp [noNot, h'] at h

/-- With a comment between `not` and `in`, these are two words, and this is an error. -/
theorem C96_counterexample : ¬ C96_statement := by
  intro h
  obtain ⟨tree, st, st', h1, h2, h3⟩ := h c!"x = a not # c\nin b\n" c!"x = a not in b\n"
    (sameButLayout_of (okB := fun _ => true) (fun _ _ _ => trivial) [[], c!" ", c!" ", c!" ", c!" ", c!" "]
      (by decide +kernel) (by decide +kernel) (by decide +kernel))
  have e1 : (parseFile c!"x = a not # c\nin b\n").map (fun x => x.2.errs.length) = some 1 := by decide +kernel
  have e2 : (parseFile c!"x = a not in b\n").map (fun x => x.2.errs.length) = some 0 := by decide +kernel
  rw [h1] at e1
  rw [h2] at e2
  simp only [Option.map_some, Option.some.injEq] at e1 e2
  generalize st.errs = a at *
  generalize st'.errs = b at *
  cases h3 with
  | nil => simp at e1
  | cons _ _ => simp at e2

def plainText : Str := c!"cc_library(name=\"a\",deps=[\":b\"])\nalias(name=\"b\",actual=\":a\")"
def prettyText : Str :=
  c!"# A library\ncc_library(\n    name = \"a\",\n    deps = [  # what is needed\n        \":b\"\n    ]\n)\n\n# Not (needed).\nalias(name=\"b\", actual=\":a\")\n"

theorem plain_pretty : SameButLayout NotThenIn plainText prettyText :=
  sameButLayout_of noNot_ok (gapsOf 0 (initState prettyText).toks prettyText)
    (by decide +kernel) (by decide +kernel) (by decide +kernel)

/-- The number of statements. -/
def countOf : Node → Nat
  | .list _ items => items.length
  | _ => 0

/-- Both texts are read without errors, as the same two rules. -/
example : ∃ tree st st', parseFile plainText = some (tree, st) ∧ parseFile prettyText = some (tree, st') ∧
    st.errs = [] ∧ st'.errs = [] ∧ countOf tree = 2 := by
  obtain ⟨tree, st, st', h1, h2, h3⟩ := C96_tree_partial plain_pretty
  have e : (parseFile plainText).map (fun x => (x.2.errs, countOf x.1)) = some ([], 2) := by decide +kernel
  rw [h1] at e
  simp only [Option.map_some, Option.some.injEq, Prod.mk.injEq] at e
  refine ⟨tree, st, st', h1, h2, e.1, ?_, e.2⟩
  rw [e.1] at h3
  generalize st'.errs = b at *
  cases h3; rfl

/-- A machine on which the file is written in the other way. -/
def rewritten (texts : List (Str × Str)) : Machine :=
  { disk texts with
    fs := { (disk texts).fs with
      content := fun p => ((disk texts).fs.content p).map fun c => if c = plainText then prettyText else c }
    base := fun p => 7 * p.length }

theorem rewritten_same {texts : List (Str × Str)} (h : lookup texts c!".bazelrc" = none) :
    SameProject (disk texts) (rewritten texts) := by
  refine ⟨rfl, ?_, ?_, ?_⟩
  · intro name
    simp only [rewritten]
    cases (disk texts).fs.content name <;> simp
  · intro name c c' h1 h2 _
    simp only [rewritten, h1, Option.map_some, Option.some.injEq] at h2
    subst h2
    split
    · next hc => subst hc; exact Or.inr plain_pretty
    · exact Or.inl rfl
  · have e : (disk texts).fs.content c!".bazelrc" = none := by
      have e : plainPath c!".bazelrc" = c!".bazelrc" := by decide
      simp only [disk, e, h]
      decide
    simp only [rewritten, e, Option.map_none]

/-- A project with that text. -/
def layoutFiles : List (Str × Str) :=
  [(c!"p/BUILD", plainText), (c!"q/BUILD", c!"cc_library(name=\"d\",deps=[\"//p:a\"])")]

/-- The commands print the same. -/
example : (∀ flags cmd pattern,
      runCommand (rewritten layoutFiles) flags cmd pattern = runCommand (disk layoutFiles) flags cmd pattern) ∧
    (rewritten layoutFiles).fs.content c!"p/BUILD" = some prettyText ∧
    (disk layoutFiles).fs.content c!"p/BUILD" = some plainText ∧
    (runCommand (disk layoutFiles) { ({} : Flags) with format := .csv } .dependsOn everything).map (·.out) =
      some c!"\"library\",\"depends-on\"\n\"//p:a\",\"//p:b\"\n\"//p:b\",\"//p:a\"\n\"//q:d\",\"//p:a\"\n" := by
  refine ⟨fun flags cmd pattern => ?_, by decide +kernel, by decide +kernel, by decide +kernel⟩
  refine C96_commands_partial (rewritten_same (by decide)) (fun _ => ⟨?_, fun _ _ _ => rfl⟩) ⟨fun _ => rfl, fun _ => rfl⟩
  intro name c c' h1 h2
  simp only [rewritten, h1, Option.map_some, Option.some.injEq] at h2
  subst h2
  split
  · next hc => subst hc; decide +kernel
  · rfl

end Props
end Bant
