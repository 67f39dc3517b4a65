import Verif.Lemmas.ScanJoin
import Verif.Lemmas.Refactored
import Verif.Lemmas.SameRulesCommand
import Verif.Props.Query
import Verif.Spec.Appended

/-! Appending to a BUILD file only adds; what is read of a file with errors (C138). -/
namespace Bant
namespace Props
open Parser Grammar Query Rules LayoutSpec

/-- **C138**: if a text is read without errors, and another one that begins with a name or a string is appended in a new line, then
the statements of the first are read, and then what is read of the second if it is alone. There are errors at those
tokens at which there are in the second. -/
theorem C138_appended {a b : Str} {tree : Node} {st : PState} (ha : parseFile a = some (tree, st)) (he : st.errs = [])
    (hb : BeginsAnew b) :
    ∃ xs ys st2 st', tree = .list .list xs ∧ parseFile b = some (.list .list ys, st2) ∧
      parseFile (a ++ '\n' :: b) = some (.list .list (xs ++ ys), st') ∧ SameTokens st2.errs st'.errs := by
  obtain ⟨ts, h1, h2⟩ := hb
  obtain ⟨xs, rfl⟩ := Broken.statements_form _ _ _ _ _ ha
  obtain ⟨t2, st2, hb, _⟩ := parseFile_total b
  obtain ⟨ys, st', rfl, h3, h4⟩ := ScanJoin.parse_joined ha he hb h1 (by
    cases ts with
    | nil => exact .inl (by simp [Stops, hd])
    | cons t ts => exact .inr (h2 t rfl))
  exact ⟨xs, ys, st2, st', by simp, hb, h3, h4⟩

theorem report_append (k : List Node → List (Node × Node)) (rules : List Str) (ae : Bool) :
    ∀ (xs ys : List (Node × Node)) (vis : Option ListRef), ∃ vis', report k rules ae vis (xs ++ ys) =
      report k rules ae vis xs ++ report k rules ae vis' ys ∧
      ((∀ s ∈ xs, s.1 ≠ .ident c!"package") → vis' = vis)
  | [], ys, vis => ⟨vis, by simp [report], fun _ => rfl⟩
  | (f, args) :: xs, ys, vis => by
    have ih := report_append k rules ae xs ys
    have skip : ∃ vis', report k rules ae vis (xs ++ ys) = report k rules ae vis xs ++ report k rules ae vis' ys ∧
        ((∀ s ∈ (f, args) :: xs, s.1 ≠ .ident c!"package") → vis' = vis) := by
      obtain ⟨vis', h1, h2⟩ := ih vis
      exact ⟨vis', h1, fun h => h2 fun s hs => h s (by simp [hs])⟩
    rw [List.cons_append]
    cases f with
    | ident fn =>
      cases args with
      | list ty as =>
        simp only [report]
        split
        · rename_i hp
          obtain ⟨vis', h1, h2⟩ := ih ((last c!"default_visibility" listOf (k as)).or vis)
          exact ⟨vis', h1, fun h => absurd (by rw [hp]) (h (.ident fn, .list ty as) (by simp))⟩
        · split
          · obtain ⟨vis', h1, h2⟩ := skip
            exact ⟨vis', by rw [h1]; rfl, h2⟩
          · exact skip
      | _ => simpa only [report] using skip
    | _ => simpa only [report] using skip

/-- **C138** for the rules: those of the first text are found, with their attributes, before all that are appended. If
`package()` is not called in the first text, then the others are those that are found in the second text alone. -/
theorem C138_rules {a b : Str} {tree : Node} {st : PState} (ha : parseFile a = some (tree, st)) (he : st.errs = [])
    (hb : BeginsAnew b) (ae : Bool) (rules : List Str) :
    ∃ tb t st2 st' rs rs', parseFile b = some (tb, st2) ∧ parseFile (a ++ '\n' :: b) = some (t, st') ∧
      findTargets ae tree rules = some rs ∧ findTargets ae t rules = some (rs ++ rs') ∧
      ((∀ s ∈ sites tree, s.1 ≠ .ident c!"package") → findTargets ae tb rules = some rs') := by
  obtain ⟨xs, ys, st2, st', rfl, h1, h2, _⟩ := C138_appended ha he hb
  obtain ⟨vis, e1, e2⟩ := report_append kwArgsIn rules ae (sitesIn xs) (sitesIn ys) none
  refine ⟨_, _, st2, st', _, report kwArgsIn rules ae vis (sitesIn ys), h1, h2,
    C47_visits _ _ _ (RulesSpec.parsed_proper ha), ?_, fun hpk => ?_⟩
  · rw [C47_visits _ _ _ (RulesSpec.parsed_proper h2)]
    simp only [sites, RulesSpec.sitesIn_append, e1]
  · rw [C47_visits _ _ _ (RulesSpec.parsed_proper h1), e2 (by simpa [sites] using hpk)]
    rfl

/-- **C138** for any file: what is read are complete statements, up to some place; if there are errors, then followed by
at most one more, and the first error is behind this place. Nothing is left out otherwise. -/
theorem C138_split {content : Str} {ts : List Token} (hts : TokensOf content ts) {tree : Node} {st : PState}
    (h : parseFile content = some (tree, st)) :
    ∃ pre rest xs ys, ts = pre ++ rest ∧ Parses .program pre [] (.list .list xs) ∧ tree = .list .list (xs ++ ys) ∧
      (st.errs = [] → rest = [] ∧ ys = []) ∧
      (st.errs ≠ [] → rest ≠ [] ∧ ys.length ≤ 1 ∧
        ∃ e, st.errs.head? = some e ∧ (e ∈ rest ∨ e = (initState content).eof)) := by
  obtain ⟨pre, rest, xs, ys, h1, h2, h3, h4, h5⟩ := Broken.split _ [] (initState content) (initState_good content) rfl _ _ h
  rw [initState_toks hts] at h1
  exact ⟨pre, rest, xs, ys, h1, h2, by simpa using h3, h4, h5⟩

/-! ### Examples -/

theorem beginsAnew_of {b : Str} (h : (Scanner.next (Scanner.init b)).1.type ∈ [.identifier, .stringLiteral, .eof]) :
    BeginsAnew b := by
  obtain ⟨ts, hts, _⟩ := tokensOf_exists b
  refine ⟨ts, hts, fun t ht => ?_⟩
  obtain ⟨e, h1, h2, h3⟩ := hts
  cases ts with
  | nil => cases ht
  | cons t' ts =>
    cases ht
    rw [List.length_cons, Scanner.deliver] at h1
    simp only [List.cons_append, List.cons.injEq] at h1
    rw [h1.1] at h
    simp only [List.mem_cons, List.not_mem_nil, or_false] at h
    rcases h with h | h | h
    · exact .inl h
    · exact .inr h
    · exact absurd h (h3 _ (by simp))

/-- A complete rule, and in a new line one with a string that is not closed, and another rule. -/
example : ∃ st, parseFile c!"a(name = \"x\")" = some (.list .list [.call (.ident c!"a")
      (.list .tuple [.assign (.ident c!"name") (.str c!"x" false false)])], st) ∧ st.errs = [] := by
  cases h : parseFile c!"a(name = \"x\")" with
  | none =>
    have : (parseFile c!"a(name = \"x\")").isSome = true := by decide +kernel
    rw [h] at this; cases this
  | some r =>
    have h1 : (parseFile c!"a(name = \"x\")").map (fun r => (r.1, r.2.errs)) = some (.list .list [.call (.ident c!"a")
      (.list .tuple [.assign (.ident c!"name") (.str c!"x" false false)])], []) := by decide +kernel
    rw [h] at h1
    simp only [Option.map_some, Option.some.injEq, Prod.mk.injEq] at h1
    obtain ⟨t, st⟩ := r
    exact ⟨st, by rw [← h1.1], h1.2⟩
example : BeginsAnew c!"b(name = \"y)\nc()" := beginsAnew_of (by decide +kernel)
example : ((parseFile (c!"a(name = \"x\")" ++ '\n' :: c!"b(name = \"y)\nc()")).map fun r => (r.1, r.2.errs.length)) =
    some (.list .list [.call (.ident c!"a") (.list .tuple [.assign (.ident c!"name") (.str c!"x" false false)]),
      .call (.ident c!"b") (.list .tuple [.assign (.ident c!"name") .null])], 2) := by decide +kernel

/-- What does not begin with a name or a string can continue the last statement. -/
example : ((parseFile (c!"x = 1" ++ '\n' :: c!"+ 2")).map fun r => (r.1, r.2.errs.length)) =
    some (.list .list [.assign (.ident c!"x") (.binop (.op '+') (.int c!"1" 1) (.int c!"2" 2))], 0) := by decide +kernel

end Props
end Bant
