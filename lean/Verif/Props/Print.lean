import Verif.Lemmas.PrintSelect
import Verif.Spec.Cli

/-! # Printing (C16, C67, C68) -/
namespace Bant
namespace Props
open Print Query Rules Parser

/-! ## C16: the printed form means the same -/

/-- **C16**, full statement: each statement of a file can be printed and the text is parsed to
the same statement. -/
def C16_statement : Prop := ∀ (content : Str) (stmts : List Node), ReadAs content (.list .list stmts) →
  ∀ x ∈ stmts, ∃ text, printNode none false x = some (text, false) ∧
    ReadAs (text ++ c!"\n") (.list .list [x])

/-- A file with one statement whose printed form is something else. -/
theorem reprint_fails {content : Str} {x : Node} (h1 : outcome content = some (.list .list [x], []))
    {text : Str} (h2 : printNode none false x = some (text, false))
    (h3 : outcome (text ++ c!"\n") ≠ some (.list .list [x], [])) : ¬ C16_statement := by
  intro h
  have hr : ∀ {c n}, outcome c = some (n, []) → ReadAs c n := by
    intro c n hc
    obtain ⟨m, st, hp, _⟩ := parseFile_total c
    simp only [outcome, hp, Option.map_some, Option.some.injEq, Prod.mk.injEq] at hc
    exact ⟨st, by rw [hp, hc.1], hc.2⟩
  obtain ⟨t, h4, st, h5, h6⟩ := h content [x] (hr h1) x (by simp)
  rw [h2] at h4
  cases h4
  refine h3 ?_
  simp only [outcome, h5, h6, Option.map_some]

/-- Parentheses are lost: `(a + b) * c` is printed as `a + b * c`. -/
theorem C16_counterexample : ¬ C16_statement :=
  reprint_fails (content := c!"x = (a + b) * c") (x := .assign (.ident c!"x") (.binop (.op '*')
    (.binop (.op '+') (.ident c!"a") (.ident c!"b")) (.ident c!"c"))) (text := c!"x = a + b * c")
    (by decide +kernel) (by decide +kernel) (by decide +kernel)

/-- A string with a bare single quote and an escaped double quote is put in single quotes. -/
theorem C16_quotes_counterexample : ¬ C16_statement :=
  reprint_fails (content := c!"x = \"a'\\\"b\"") (x := .assign (.ident c!"x")
    (.str c!"a'\\\"b" false false)) (text := c!"x = 'a'\\\"b'")
    (by decide +kernel) (by decide +kernel) (by decide +kernel)

/-- A string with three double quotes that contains one is put in three single quotes, which are
not removed when it is read. -/
theorem C16_triple_counterexample : ¬ C16_statement :=
  reprint_fails (content := c!"x = \"\"\"a\"b\"\"\"") (x := .assign (.ident c!"x")
    (.str c!"a\"b" true false)) (text := c!"x = '''a\"b'''")
    (by decide +kernel) (by decide +kernel) (by decide +kernel)

/-- `1 .y` is printed as `1.y`. -/
theorem C16_number_counterexample : ¬ C16_statement :=
  reprint_fails (content := c!"x = 1 .y") (x := .assign (.ident c!"x") (.binop (.op '.')
    (.int c!"1" 1) (.ident c!"y"))) (text := c!"x = 1.y")
    (by decide +kernel) (by decide +kernel) (by decide +kernel)

/-- `!inner` is printed as `not inner`, which is scanned as `not in` and `ner`. -/
theorem C16_not_counterexample : ¬ C16_statement :=
  reprint_fails (content := c!"x = !inner") (x := .assign (.ident c!"x") (.unary (.op '!')
    (.ident c!"inner"))) (text := c!"x = not inner")
    (by decide +kernel) (by decide +kernel) (by decide +kernel)

/-- The `else` in `a if (b if c) else d` goes to the other `if`. -/
theorem C16_else_counterexample : ¬ C16_statement :=
  reprint_fails (content := c!"x = a if (b if c) else d") (x := .assign (.ident c!"x")
    (.ternary (.ternary (.ident c!"c") (.ident c!"b") .null) (.ident c!"a") (.ident c!"d")))
    (text := c!"x = a if b if c else d")
    (by decide +kernel) (by decide +kernel) (by decide +kernel)

/-- A missing variable is printed as the variable `NIL`. -/
theorem C16_missing_counterexample : ¬ C16_statement :=
  reprint_fails (content := c!"(a,,b) = c") (x := .assign (.list .tuple [.ident c!"a", .null, .ident c!"b"])
    (.ident c!"c")) (text := c!"(\n    a,\n    NIL,\n    b\n) = c")
    (by decide +kernel) (by decide +kernel) (by decide +kernel)

/-- **C16** for each statement that needs no parentheses and has none of the other problems of the
counterexamples, see `Reprintable` (these are missing). -/
theorem C16_statement_partial (content : Str) (stmts : List Node)
    (h : ReadAs content (.list .list stmts)) (x : Node) (hx : x ∈ stmts) (hr : Reprintable x) :
    ∃ text, printNode none false x = some (text, false) ∧ ReadAs (text ++ c!"\n") (.list .list [x]) := by
  obtain ⟨st, h1, h2⟩ := h
  obtain ⟨xs, he, hs⟩ := parsed_stmts h1 h2
  cases he
  exact ⟨_, printNode_plain (stmt_wellTyped (hs x hx)), print_stmt (hs x hx) hr 0⟩

/-- **C16** for several rules, wherever they are in the file, in any order: printed after each other,
with a comment line before each one, they are parsed to these rules. Missing: as above. -/
theorem C16_rules_partial (content : Str) (stmts : List Node) (h : ReadAs content (.list .list stmts))
    (xs : List (Str × Node × Node)) (hx : ∀ x ∈ xs, '\n' ∉ x.1 ∧ x.2 ∈ callsIn stmts ∧
      Reprintable (.call x.2.1 x.2.2)) :
    ReadAs (printStatements (xs.map fun x => (x.1, .call x.2.1 x.2.2)))
      (.list .list (xs.map fun x => .call x.2.1 x.2.2)) := by
  obtain ⟨st, h1, h2⟩ := h
  obtain ⟨ys, he, hs⟩ := parsed_stmts h1 h2
  cases he
  have := print_stmts (xs := xs.map fun x => (x.1, .call x.2.1 x.2.2)) (by
    intro y hy
    obtain ⟨x, hm, rfl⟩ := List.mem_map.1 hy
    obtain ⟨a, b, c⟩ := hx x hm
    obtain ⟨z, hz, hc⟩ := callsIn_mem b
    exact ⟨a, .call (stmt_calls (hs z hz) _ hc), c, .call⟩)
  simpa [List.map_map, Function.comp_def, ReadAs] using this

/-- A statement of which the theorem speaks: calls, nested lists, maps, comprehensions, slices,
conditions, strings with quotes of one kind. -/
def sample : Node := .call (.ident c!"cc_library") (.list .tuple [
  .assign (.ident c!"name") (.str c!"it's" false false),
  .assign (.ident c!"srcs") (.binop (.op '+') (.list .list [.str c!"say \"x\"" false true])
    (.compr .list (.binop .kFor (.binop (.op '[') (.ident c!"f") (.binop (.op ':') (.int c!"0x1" 1) .null))
      (.binop .kIn (.list .tuple [.ident c!"f"]) (.call (.ident c!"glob") (.list .tuple []))))))
      ,
  .ternary (.unary (.op '!') (.ident c!"a")) (.int c!"1" 1) (.list .map [.binop (.op ':')
    (.ident c!"k") (.unary (.op '-') (.ident c!"v"))])])

theorem sample_reprintable : Reprintable sample := by
  have noQuote : ∀ {t : Str}, '"' ∉ t → ('"' ∈ t → false = false ∧ NoBareQuote t) :=
    fun h h' => absurd h' h
  have simple : ∀ {op : TokenType} {l : Node}, Simple l → (op ∉ [.op ':', .kFor] → Simple l) :=
    fun h _ => h
  refine .call .ident (.list ?_ (by simp))
  intro x hx
  simp only [List.mem_cons, List.not_mem_nil, or_false] at hx
  rcases hx with rfl | rfl | rfl
  · exact .assign .ident (.str (noQuote (by decide)))
  · refine .assign .ident (.binop (.list ?_ (by simp)) (.compr (.binop ?_ ?_ (by simp) (by simp)))
      (simple .list) (by simp))
    · intro x hx
      rw [List.mem_singleton.1 hx]
      exact .str fun _ => ⟨rfl, c!"say \"x\"".map ([·]), by decide, by simp [StringUnit], by decide⟩
    · exact .binop .ident (.binop .int .null (by simp) (by simp)) (simple .ident) (by simp)
    · refine .binop (.list ?_ (by simp)) (.call .ident (.list (by simp) (by simp))) (simple .list) (by simp)
      intro x hx
      rw [List.mem_singleton.1 hx]
      exact .ident
  · refine .ternary (.unary .ident (by simp) ?_) .int (.list ?_ (by simp)) .int (fun _ h => by cases h; contradiction)
    · intro _ i
      simp [print, printWith]
    · intro x hx
      rw [List.mem_singleton.1 hx]
      exact .binop .ident (.unary .ident (by simp) (by simp)) (by simp) (by simp)

example : outcome c!"cc_library(name = \"it's\", srcs = [r'say \"x\"'] + [f[0x1:] for f in glob()], 1 if not a else {k: -v})"
    = some (.list .list [sample], []) := by decide +kernel
example : printNode none false sample = some (c!"cc_library(\n    name = \"it's\",\n    srcs = [r'say \"x\"'] + [f[0x1 : ] for (f,) in glob()],\n    1 if not a else {k : -v}\n)", false) := by
  decide +kernel

/-! ## C67: highlighting -/

/-- **C67**, full statement: with a grep pattern, whatever it finds, a statement of a file (evaluated or not,
with or without syntax errors) is printed as without, with control sequences in between if these are wanted; and there is a highlight iff
the pattern matches some name, identifier or string in it. -/
def C67_statement : Prop := ∀ stmts : List Node, FromFile (.list .list stmts) →
  ∀ x ∈ stmts, ∀ (find : Find) (color : Bool), (∀ s b l, find s = some (b, l) → b + l ≤ s.length) →
  ∃ text hit, printNode (some find) color x = some (text, hit) ∧
    Colored (print 0 x) text ∧ (color = false → text = print 0 x) ∧
    (hit = true ↔ ∃ w, Word x w ∧ (find w).isSome = true)

/-- A pattern that matches the empty string, such as `a*`, is found again and again at the same place. -/
theorem C67_counterexample : ¬ C67_statement := by
  intro h
  have hr : ReadAs c!"f()" (.list .list [.call (.ident c!"f") (.list .tuple [])]) := by
    obtain ⟨n, st, hp, _⟩ := parseFile_total c!"f()"
    have ho : outcome c!"f()" = some (.list .list [.call (.ident c!"f") (.list .tuple [])], []) := by
      decide +kernel
    simp only [outcome, hp, Option.map_some, Option.some.injEq, Prod.mk.injEq] at ho
    exact ⟨st, by rw [hp, ho.1], ho.2⟩
  obtain ⟨text, hit, h1, _⟩ := h _ (fromFile_of hr) _ (List.mem_singleton.2 rfl) (fun s => some (0, (s.takeWhile (· = 'a')).length)) false (by
    intro s b l hs
    cases hs
    have := (List.takeWhile_prefix (p := (· = 'a')) (l := s)).length_le
    omega)
  have h2 : printNode (some fun s => some (0, (s.takeWhile (· = 'a')).length)) false
      (.call (.ident c!"f") (.list .tuple [])) = none := by decide +kernel
  rw [h2] at h1
  cases h1

/-- **C67** for patterns that have no empty match at the begin of a text (missing: all others). -/
theorem C67_highlight_partial (stmts : List Node) (h : FromFile (.list .list stmts))
    (x : Node) (hx : x ∈ stmts) (find : Find) (color : Bool)
    (hin : ∀ s b l, find s = some (b, l) → b + l ≤ s.length) (hne : ∀ s, find s ≠ some (0, 0)) :
    ∃ text hit, printNode (some find) color x = some (text, hit) ∧
      Colored (print 0 x) text ∧ (color = false → text = print 0 x) ∧
      (hit = true ↔ ∃ w, Word x w ∧ (find w).isSome = true) := by
  obtain ⟨xs, he, hs⟩ := fromFile_calls h
  cases he
  obtain ⟨text, hit, h3⟩ := printNode_ends (color := color) (callsOk_wellTyped x (callsOkAll_mem hs x hx)) hne hin
  obtain ⟨h4, h5, h6⟩ := printNode_sound h3
  refine ⟨text, hit, h3, h4, h5, h6.trans ?_⟩
  constructor
  · rintro ⟨f, w, he, hw, hf⟩
    cases he
    exact ⟨w, hw, hf⟩
  · rintro ⟨w, hw, hf⟩
    exact ⟨find, w, rfl, hw, hf⟩

/-- **C67**, exactly when it ends: printing goes on for ever iff in some name, identifier or string, behind some number of
matches, the pattern has an empty match at the begin of what is left. In all other cases the statement above holds. -/
theorem C67_ends (stmts : List Node) (h : FromFile (.list .list stmts))
    (x : Node) (hx : x ∈ stmts) (find : Find) (color : Bool)
    (hin : ∀ s b l, find s = some (b, l) → b + l ≤ s.length) :
    (printNode (some find) color x = none ↔ ∃ w r, Word x w ∧ Behind find w r ∧ find r = some (0, 0)) ∧
    (¬ (∃ w r, Word x w ∧ Behind find w r ∧ find r = some (0, 0)) →
      ∃ text hit, printNode (some find) color x = some (text, hit) ∧
        Colored (print 0 x) text ∧ (color = false → text = print 0 x) ∧
        (hit = true ↔ ∃ w, Word x w ∧ (find w).isSome = true)) := by
  obtain ⟨xs, he, hs⟩ := fromFile_calls h
  cases he
  have hn := printNode_none (color := color) (callsOk_wellTyped x (callsOkAll_mem hs x hx)) hin
  refine ⟨hn, fun h0 => ?_⟩
  cases h3 : printNode (some find) color x with
  | none => exact absurd (hn.1 h3) h0
  | some r =>
    obtain ⟨text, hit⟩ := r
    obtain ⟨h4, h5, h6⟩ := printNode_sound h3
    refine ⟨text, hit, rfl, h4, h5, h6.trans ?_⟩
    constructor
    · rintro ⟨f, w, he, hw, hf⟩
      cases he
      exact ⟨w, hw, hf⟩
    · rintro ⟨w, hw, hf⟩
      exact ⟨find, w, rfl, hw, hf⟩

/-- Search for `a*`: always matches. -/
def findMany : Find := fun s => some (0, (s.takeWhile (· = 'a')).length)

/- In the name `aaf`, `aa` is found, then the empty text in front of `f`, for ever. -/
example : Behind findMany c!"aaf" c!"f" ∧ findMany c!"f" = some (0, 0) :=
  ⟨.further (s := c!"aaf") (b := 0) (l := 2) .whole (by decide), by decide⟩
example : printNode (some findMany) false (.call (.ident c!"aaf") (.list .tuple [])) = none := by decide +kernel

/-- Search for a character. -/
def findChar (c : Char) : Find := fun s =>
  if c ∈ s then some ((s.takeWhile (· ≠ c)).length, 1) else none

example : printNode (some (findChar 'a')) true (.call (.ident c!"fab") (.list .tuple [
    .assign (.ident c!"k") (.str c!"xaya" false false)])) =
    some (c!"\x1b[1mf\x1b[7ma\x1b[27mb\x1b[0m(\x1b[35mk\x1b[0m = \"x\x1b[7ma\x1b[27my\x1b[7ma\x1b[27m\",)", true) := by
  decide +kernel
example : printNode (some (findChar 'a')) false (.call (.ident c!"fb") (.list .tuple [.int c!"0xa" 10])) =
    some (c!"fb(0xa,)", false) := by decide +kernel

/-! ## C68: which rules are printed -/

/-- **C68**: if printing ends, what is printed are the rules the patterns ask for -
with a grep pattern only those in which it matches some name, identifier or string - with a comment
line each, in the order of the files. This holds for all files, also with syntax errors, and also if they have
been evaluated (`-e`). With colour there are control sequences in between. -/
theorem C68_selection (o : Options) (pattern : BazelPattern) (files : List File)
    (hp : ∀ f ∈ files, FromFile f.ast) (out : Str)
    (h : printProject o pattern files = some out) :
    ∃ chosen : File × Str × Result → Bool,
      (∀ x ∈ rulesIn (files.filter fun f => !o.onlyErrors || f.hasErrors), chosen x = true ↔
        Asked pattern x.1.package x.2.2 ∧
        ∀ find, o.find = some find → ∃ w, Word x.2.2.node w ∧ (find w).isSome = true) ∧
      Colored (printStatements (((rulesIn (files.filter fun f => !o.onlyErrors || f.hasErrors)).filter
        chosen).map fun x => (commentOf x.1.package x.2.1 x.2.2, x.2.2.node))) out ∧
      (o.color = false → out = printStatements (((rulesIn (files.filter fun f =>
        !o.onlyErrors || f.hasErrors)).filter chosen).map fun x =>
          (commentOf x.1.package x.2.1 x.2.2, x.2.2.node))) := by
  obtain ⟨h1, h2⟩ := printProject_eq (fun f hf => sound_of_file (hp f hf)) h
  refine ⟨keep o pattern, ?_, h1.1, h1.2⟩
  intro x hx
  rw [asked_iff]
  unfold keep
  rw [Bool.and_eq_true]
  refine and_congr_right fun hw => ?_
  obtain ⟨⟨text, hit⟩, hn⟩ := h2 x hx hw
  have hs := (printNode_sound hn).2.2
  rw [hn, Bool.or_eq_true]
  simp only [Option.map_some, Option.getD_some]
  cases hf : o.find with
  | none => simp
  | some find =>
    rw [hf] at hs
    simp only [Option.isNone_some, Bool.false_eq_true, false_or, Option.some.injEq]
    rw [hs]
    constructor
    · rintro ⟨f, w, he, hw, hfw⟩ g hg
      cases he
      cases hg
      exact ⟨w, hw, hfw⟩
    · intro hall
      obtain ⟨w, hw, hfw⟩ := hall find rfl
      exact ⟨find, w, rfl, hw, hfw⟩

/-- Nothing is missing in files without syntax errors. -/
theorem C68_complete {content : Str} {ast : Node} (h : ReadAs content ast) : VisibilityComplete ast := by
  obtain ⟨st, h1, h2⟩ := h
  obtain ⟨xs, rfl, hs⟩ := parsed_stmts h1 h2
  intro r hr ty ys hvis
  obtain ⟨_, hv⟩ := report_mem hr
  rw [hvis] at hv
  rcases hv with hv | hv | ⟨s, hm, kw, hk, hv⟩
  · cases hv
  · cases hv
  · obtain ⟨z, hz, hc⟩ := callsIn_mem (sitesIn_callsIn xs s hm)
    have ht := tree_kwArgs (stmt_calls (hs z hz) _ hc) kw hk
    cases hkw : kw.2 with
    | list ty' zs =>
      rw [hkw] at hv ht
      simp only [listOf, Option.some.injEq, Prod.mk.injEq] at hv
      obtain ⟨rfl, rfl⟩ := hv
      exact tree_elems ht
    | _ => rw [hkw] at hv; cases hv

/-- **C68**, full statement about the end: without grep pattern, printing ends. -/
def C68_ends_statement : Prop := ∀ (color onlyErrors : Bool) (pattern : BazelPattern) (files : List File),
  (∀ f ∈ files, FromFile f.ast) → ∃ out, printProject ⟨onlyErrors, none, color⟩ pattern files = some out

/-- A syntax error in a visibility list leaves an element that is missing, and which is looked at. -/
theorem C68_counterexample : ¬ C68_ends_statement := by
  intro h
  have ho : outcome c!"r(name = 'x', visibility = ['a', =])" = some (.list .list [
      .call (.ident c!"r") (.list .tuple [.assign (.ident c!"name") (.str c!"x" false false),
        .assign (.ident c!"visibility") (.list .list [.str c!"a" false false, .null])])],
      ((outcome c!"r(name = 'x', visibility = ['a', =])").getD (.null, [])).2) := by decide +kernel
  obtain ⟨n, st, hp, _⟩ := parseFile_total c!"r(name = 'x', visibility = ['a', =])"
  simp only [outcome, hp, Option.map_some, Option.some.injEq, Prod.mk.injEq] at ho
  obtain ⟨out, h1⟩ := h false false ⟨⟨⟨[], []⟩, []⟩, .recursive⟩ [⟨⟨[], c!"a"⟩, n, true, fun _ => []⟩] (by
    intro f hf
    rw [List.mem_singleton.1 hf]
    exact ⟨_, _, _, hp, .inl rfl⟩)
  rw [ho.1] at h1
  replace h1 := congrArg Option.isSome h1
  rw [Option.isSome_some] at h1
  revert h1
  decide +kernel

/-- **C68**: printing ends if nothing is missing in the lists given as visibility, without grep pattern, and
with one that has no empty match at the begin of a text (missing: all others, see C67 and the counterexample). -/
theorem C68_ends_partial (o : Options) (pattern : BazelPattern) (files : List File)
    (hp : ∀ f ∈ files, FromFile f.ast) (hvis : ∀ f ∈ files, VisibilityComplete f.ast)
    (hfind : ∀ find, o.find = some find → (∀ s b l, find s = some (b, l) → b + l ≤ s.length) ∧
      ∀ s, find s ≠ some (0, 0)) :
    ∃ out, printProject o pattern files = some out := by
  have node : ∀ {n}, wellTyped n = true → ∃ p, printNode o.find o.color n = some p := by
    intro n hn
    cases hf : o.find with
    | none => simp [printNode, hn, highlight]
    | some find =>
      obtain ⟨h1, h2⟩ := hfind find hf
      obtain ⟨t, hit, h⟩ := printNode_ends (color := o.color) hn h2 h1
      exact ⟨_, h⟩
  have rules : ∀ (f : File) (rs : List Result) (k : Nat), (∀ r ∈ rs, wellTyped r.node = true) →
      (∀ r ∈ rs, ∃ v, visibilityText r.visibility = some v) →
      ∃ out, printRules o pattern f.package f.loc k rs = some out := by
    intro f rs
    induction rs with
    | nil => exact fun _ _ _ => ⟨_, rfl⟩
    | cons r rs ih =>
      intro k h1 h2
      obtain ⟨b, hb⟩ := ih (k + 1) (fun r hr => h1 r (by simp [hr])) (fun r hr => h2 r (by simp [hr]))
      have ha : ∃ a, printRule o pattern f.package (f.loc k) r = some a := by
        unfold printRule
        split
        · obtain ⟨v, hv⟩ := h2 r (by simp)
          obtain ⟨⟨text, hit⟩, hn⟩ := node (h1 r (by simp))
          exact ⟨_, by rw [hn, comment, hv]; rfl⟩
        · exact ⟨_, rfl⟩
      obtain ⟨a, ha⟩ := ha
      exact ⟨a ++ b, by simp only [printRules, ha, hb]⟩
  induction files with
  | nil => exact ⟨_, rfl⟩
  | cons f fs ih =>
    obtain ⟨b, hb⟩ := ih (fun f hf => hp f (by simp [hf])) (fun f hf => hvis f (by simp [hf]))
    obtain ⟨rs, hs⟩ := sound_of_file (hp f (by simp))
    obtain ⟨a, ha⟩ := rules f rs 0 hs.typed (fun r hr => by
      rw [hs.rules] at hr
      have := hvis f (by simp) r hr
      cases hv : r.visibility with
      | none => exact ⟨_, rfl⟩
      | some l => exact ⟨_, by rw [visibilityText, visibilityWords_eq (this _ _ hv)]; rfl⟩)
    simp only [printProject]
    split
    · exact ⟨b, hb⟩
    · exact ⟨a ++ b, by simp only [hs.found, ha, hb]⟩

/-- **C16** for the output of `bant print`, without colour and grep: it is parsed to the rules the
pattern asks for, in their order. Missing: rules that are not `Reprintable`, newlines in the comment
line (in names, locations and the visibility). -/
theorem C16_command_partial (pattern : BazelPattern) (files : List File)
    (hp : ∀ f ∈ files, ∃ content, ReadAs content f.ast)
    (hr : ∀ x ∈ rulesIn files, Asked pattern x.1.package x.2.2 →
      Reprintable x.2.2.node ∧ '\n' ∉ commentOf x.1.package x.2.1 x.2.2) :
    ∃ out chosen, printProject ⟨false, none, false⟩ pattern files = some out ∧
      (∀ x ∈ rulesIn files, chosen x = true ↔ Asked pattern x.1.package x.2.2) ∧
      ReadAs out (.list .list (((rulesIn files).filter chosen).map fun x => x.2.2.node)) := by
  have hf : ∀ f ∈ files, FromFile f.ast := fun f hf => (hp f hf).elim fun _ h => fromFile_of h
  obtain ⟨out, ho⟩ := C68_ends_partial ⟨false, none, false⟩ pattern files hf
    (fun f hf => (hp f hf).elim fun _ h => C68_complete h) (by simp)
  obtain ⟨chosen, h1, _, h2⟩ := C68_selection ⟨false, none, false⟩ pattern files hf out ho
  replace h2 := h2 rfl
  have hall : files.filter (fun f => !false || f.hasErrors) = files := by simp
  simp only [hall] at h1 h2
  have h1' : ∀ x ∈ rulesIn files, chosen x = true ↔ Asked pattern x.1.package x.2.2 := by
    intro x hx
    rw [h1 x hx]
    simp
  refine ⟨out, chosen, ho, h1', ?_⟩
  rw [h2]
  have := print_stmts (xs := ((rulesIn files).filter chosen).map fun x =>
    (commentOf x.1.package x.2.1 x.2.2, x.2.2.node)) (by
    intro y hy
    obtain ⟨x, hm, rfl⟩ := List.mem_map.1 hy
    obtain ⟨hx, hcx⟩ := List.mem_filter.1 hm
    obtain ⟨h3, h4⟩ := hr x hx ((h1' x hx).1 hcx)
    have hst : ∃ a b, x.2.2.node = .call a b ∧ Stmt x.2.2.node := by
      unfold rulesIn at hx
      obtain ⟨f, hf, hxf⟩ := List.mem_flatMap.1 hx
      exact (hp f hf).elim fun _ h => call_of_parsed h (rulesIn_mem hxf).2
    obtain ⟨a, b, h5, h6⟩ := hst
    exact ⟨h4, h6, h3, by simp only [h5]; exact .call⟩)
  simpa [List.map_map, Function.comp_def, ReadAs] using this

/-- A project with two files; the pattern asks for one target of the first one. -/
def someProject : List File :=
  [⟨⟨[], c!"a"⟩, .list .list [
      .call (.ident c!"package") (.list .tuple [.assign (.ident c!"default_visibility")
        (.list .list [.str c!"//v" false false])]),
      .call (.ident c!"r") (.list .tuple [.assign (.ident c!"name") (.str c!"x" false false)]),
      .call (.ident c!"load") (.list .tuple [.str c!"f" false false])], false, fun _ => c!"a/BUILD:1:1"⟩,
    ⟨⟨[], c!"b"⟩, .list .list [
      .call (.ident c!"r") (.list .tuple [.assign (.ident c!"name") (.str c!"x" false false)])], true,
      fun _ => c!"b/BUILD:1:1"⟩]

example : outcome c!"package(default_visibility=['//v'])\nr(name='x')\nload('f')\n" =
    some (.list .list [
      .call (.ident c!"package") (.list .tuple [.assign (.ident c!"default_visibility")
        (.list .list [.str c!"//v" false false])]),
      .call (.ident c!"r") (.list .tuple [.assign (.ident c!"name") (.str c!"x" false false)]),
      .call (.ident c!"load") (.list .tuple [.str c!"f" false false])], []) := by decide +kernel
example : printProject ⟨false, none, false⟩ ⟨⟨⟨[], c!"a"⟩, c!"x"⟩, .exact⟩ someProject =
    some c!"# a/BUILD:1:1 //a:x (visibility: //v)\nr(name = \"x\",)\n" := by decide +kernel
example : printProject ⟨false, some (findChar 'f'), false⟩ ⟨⟨⟨[], []⟩, []⟩, .recursive⟩ someProject =
    some c!"# a/BUILD:1:1 (visibility: //v)\nload(\"f\",)\n" := by decide +kernel
example : printProject ⟨true, none, false⟩ ⟨⟨⟨[], []⟩, []⟩, .recursive⟩ someProject =
    some c!"# b/BUILD:1:1 //b:x\nr(name = \"x\",)\n" := by decide +kernel

/-- With colour, and for a file with a syntax error. -/
example : printProject ⟨false, none, true⟩ ⟨⟨⟨[], []⟩, []⟩, .recursive⟩
    [⟨⟨[], c!"a"⟩, ((outcome c!"r(name = 'x', deps = ['a', =])").getD (.null, [])).1, true, fun _ => c!"a/BUILD:1:1"⟩] =
    some c!"\x1b[2;37m# a/BUILD:1:1 //a:x\x1b[0m\n\x1b[1mr\x1b[0m(\n    \x1b[35mname\x1b[0m = \"x\",\n    \x1b[35mdeps\x1b[0m = [\n        \"a\",\n        NIL\n    ]\n)\n" := by decide +kernel

theorem digitChar_lt {d : Nat} (h : d < 10) : d.digitChar = Char.ofNat (48 + d) := by
  have : ∀ d < 10, d.digitChar = Char.ofNat (48 + d) := by decide
  exact this d h

theorem natText_decimal (n : Nat) : natText n = CliSpec.decimal n := by
  have key : ∀ n, Nat.toDigits 10 n = CliSpec.decimal n := by
    intro n
    induction n using Nat.strongRecOn with
    | _ n ih =>
      rw [Nat.toDigits_eq_if (by omega), CliSpec.decimal]
      by_cases h : n < 10
      · rw [if_pos h, if_pos h, digitChar_lt h]
      · rw [if_neg h, if_neg h, ih _ (by omega), digitChar_lt (Nat.mod_lt _ (by omega))]
  rw [natText, ← key]
  show (Nat.repr n).toList = _
  rw [Nat.repr, String.toList_ofList]

/-- C16: how numbers are printed: as they are written; if there is no text (they do not come from
a file) in decimal digits, with a sign if they are negative. -/
theorem C16_number (mark : Str → Str) (color : Bool) (i : Nat) (rep : Str) (n : Nat) (v : Int) :
    (rep ≠ [] → printWith mark color i (.int rep v) = rep) ∧
    printWith mark color i (.int [] n) = CliSpec.decimal n ∧
    (0 < n → printWith mark color i (.int [] (-n)) = '-' :: CliSpec.decimal n) := by
  refine ⟨fun h => by simp only [printWith]; exact if_neg h, natText_decimal n, fun h => ?_⟩
  cases n with
  | zero => omega
  | succ n => show '-' :: natText (n + 1) = _; rw [natText_decimal]
example : printWith id false 0 (.int c!"0x1F" 31) = c!"0x1F" := by decide +kernel
example : printWith id false 0 (.int [] (-120)) = c!"-120" := by decide +kernel

end Props
end Bant
