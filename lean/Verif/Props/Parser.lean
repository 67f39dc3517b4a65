import Verif.Lemmas.ParserFile
import Verif.Lemmas.NodeEq

/-!
C14 (the parser returns), C15 (no holes, no silent errors), C53 (the parser accepts the
grammar and builds its trees).
-/
namespace Bant.Props
open Parser Grammar Scanner

/-! ## C14 -/

/-- C14: for every content the parser returns (the model would say `none` if it did not, or
if an assertion failed, or for an invalid memory access), and it asks the scanner at most
16 times per token plus once. -/
theorem C14_parser_returns (content : Str) :
    ∃ ts tree st, TokensOf content ts ∧ parseFile content = some (tree, st) ∧
      st.requests ≤ 16 * ts.length + 1 := by
  obtain ⟨ts, hts, _⟩ := tokensOf_exists content
  obtain ⟨tree, st, h1, h2⟩ := parseFile_total content
  rw [initState_toks hts] at h2
  exact ⟨ts, tree, st, hts, h1, h2⟩

/-- C14: in terms of the size of the file. -/
theorem C14_linear (content : Str) : ∃ tree st, parseFile content = some (tree, st) ∧
    st.requests ≤ 16 * content.length + 1 := by
  obtain ⟨ts, hts, hlen⟩ := tokensOf_exists content
  obtain ⟨tree, st, h1, h2⟩ := parseFile_total content
  rw [initState_toks hts] at h2
  exact ⟨tree, st, h1, by omega⟩

/-- C14: the depth limit of the model is not what makes the parser return: there is a result
for every higher limit, too. -/
theorem C14_depth_is_no_limit (content : Str) (fuel : Nat) (h : enoughFuel content.length ≤ fuel) :
    ∃ tree st, run fuel (.statements []) (initState content) = some (tree, st) := by
  obtain ⟨ts, hts, hlen⟩ := tokensOf_exists content
  have := run_total fuel (.statements []) (initState content) (initState_good content) trivial
    (by rw [initState_toks hts]; simp only [rank, enoughFuel] at *; omega)
  obtain ⟨a, s', h1, _⟩ := this
  exact ⟨a, s', h1⟩

/-- Garbage is parsed to something, with an error. -/
example : (parseFile c!"]((x for [ 7").map (fun r => r.2.errs.length) = some 1 := by decide +kernel
/-- Nested input. -/
example : (parseFile c!"x = [[((--1))]]").map (fun r => (r.2.errs.length, r.2.requests))
    = some (0, 39) := by decide +kernel

/-! ## C53 -/

/-- C53: the parser reports no error iff the tokens of the file are a sentence of the
grammar, and then it builds the tree of this sentence. -/
theorem C53_parser_is_grammar (content : Str) (ts : List Token) (hts : TokensOf content ts)
    (tree : Node) :
    (∃ st, parseFile content = some (tree, st) ∧ st.errs = []) ↔ Parses .program ts [] tree :=
  parseFile_iff hts tree

/-- C53: the grammar gives at most one tree to a file. -/
theorem C53_unambiguous (content : Str) (ts : List Token) (hts : TokensOf content ts) (t u : Node)
    (ht : Parses .program ts [] t) (hu : Parses .program ts [] u) : t = u := by
  obtain ⟨s1, h1, _⟩ := (parseFile_iff hts t).2 ht
  obtain ⟨s2, h2, _⟩ := (parseFile_iff hts u).2 hu
  rw [h1] at h2
  exact (Prod.mk.inj (Option.some.inj h2)).1

/-- Every file has tokens, and only one sequence of them. -/
theorem C53_tokens (content : Str) :
    ∃ ts, TokensOf content ts ∧ ∀ us, TokensOf content us → us = ts := by
  obtain ⟨ts, hts, _⟩ := tokensOf_exists content
  refine ⟨ts, hts, ?_⟩
  rintro us ⟨e, h1, h2, h3⟩
  obtain ⟨f, h4, h5, h6⟩ := hts
  exact deliver_unique h1 h2 h3 h4 h5 h6

/-- Tree and errors of a file. -/
def outcome (content : Str) : Option (Node × List Token) :=
  (parseFile content).map fun r => (r.1, r.2.errs)

/-- A sentence and its tree: operators are right-associative without precedence. -/
example : outcome c!"x = a * b + c" = some
    (.list .list [.assign (.ident c!"x") (.binop (.op '*') (.ident c!"a")
      (.binop (.op '+') (.ident c!"b") (.ident c!"c")))], []) := by decide +kernel

/-! ## C15 -/

/-- C15, full statement: without error there is no missing part. -/
def C15_statement : Prop :=
  ∀ (content : Str) (tree : Node) (st : PState), parseFile content = some (tree, st) →
    st.errs = [] → Filled false tree

/-- C15 is false: a minus without operand is accepted in parentheses. -/
theorem C15_counterexample : ¬ C15_statement := by
  intro h
  have hr : outcome c!"x = (-)" = some
      (.list .list [.assign (.ident c!"x") (.unary (.op '-') .null)], []) := by decide +kernel
  simp only [outcome, Option.map_eq_some_iff, Prod.mk.injEq] at hr
  obtain ⟨⟨t, st⟩, h1, h2, h3⟩ := hr
  have hf := h _ t st h1 h3
  simp only at h2
  rw [h2] at hf
  cases hf with
  | list hl =>
    have h3 := hl _ (List.mem_singleton.2 rfl)
    cases h3 with
    | assign _ h4 =>
      cases h4 with
      | unary h5 => cases h5
      | unaryHole h5 => cases h5

/-- C15: the other way to get a hole without error are variables. -/
theorem C15_variables_counterexample : outcome c!"(a,,b) = x" = some
    (.list .list [.assign (.list .tuple [.ident c!"a", .null, .ident c!"b"]) (.ident c!"x")], []) := by
  decide +kernel

/-- C15 (partial: a missing operand of `-`/`not` and missing variable names are the only
holes a tree can have without error). -/
theorem C15_no_holes_partial (content : Str) (tree : Node) (st : PState)
    (h : parseFile content = some (tree, st)) (he : st.errs = []) : Filled true tree := by
  obtain ⟨ts, hts, _⟩ := tokensOf_exists content
  exact tree_ok ((parseFile_iff hts tree).1 ⟨st, h, he⟩)

/-- C15: errors are not silent. If a token is not valid (unterminated string, second dot in a
number, stray character) or a number does not fit, an error is reported. -/
theorem C15_error_reported (content : Str) (ts : List Token) (hts : TokensOf content ts)
    (t : Token) (ht : t ∈ ts)
    (hbad : t.type = .error ∨ (t.type = .numberLiteral ∧ intFromLiteral t.text = none)) :
    ∃ tree st, parseFile content = some (tree, st) ∧ st.errs ≠ [] := by
  obtain ⟨tree, st, h1, _⟩ := parseFile_total content
  refine ⟨tree, st, h1, ?_⟩
  intro he
  have hp := (parseFile_iff hts tree).1 ⟨st, h1, he⟩
  obtain ⟨pre, h2, h3⟩ : Eaten ts [] := eaten_ok hp
  simp only [List.append_nil] at h2
  subst h2
  obtain ⟨h4, h5⟩ := h3 t ht
  rcases hbad with hb | ⟨hb1, hb2⟩
  · exact h4 hb
  · exact h5 hb1 hb2

/-- C15: what is reported as error are tokens of this file (or its end). -/
example : (parseFile c!"x = \"abc").map (fun r => r.2.errs.map (·.text)) = some [c!"\"abc"] := by
  decide +kernel

/-- The partial theorem is about real files: one with and one without error. -/
example : (outcome c!"f(n = \"a\", **b)").map (fun r => r.2.length) = some 2 := by decide +kernel
example : (outcome c!"f(n = \"a\", s = [f for f in b if f][1:])").map
    (fun r => r.2.length) = some 0 := by decide +kernel

end Bant.Props
