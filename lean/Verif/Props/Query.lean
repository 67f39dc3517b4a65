import Verif.Lemmas.ParserCalls
import Verif.Props.Elab

/-! Properties of finding rules in a syntax tree: C47. -/
namespace Bant
namespace Props
open Query Rules Parser Elab

deriving instance DecidableEq for Query.Result

/-- Searching the tree of a file, as parsed. -/
def search (allowEmpty : Bool) (rules : List Str) (content : Str) : Option (List Result) :=
  (parseFile content).bind fun r => findTargets allowEmpty r.1 rules

/-- **C47**, full statement: in a file without errors every call of a rule of interest is
reported once, in document order, with its own keyword arguments. -/
def C47_statement : Prop :=
  ∀ content stmts st rules, parseFile content = some (.list .list stmts, st) → st.errs = [] →
    findTargets false (.list .list stmts) rules =
      some (report ownKeywords rules false none (callsIn stmts))

theorem search_concrete {content : Str} {stmts : List Node} {rules : List Str}
    (ho : outcome content = some (.list .list stmts, []))
    (h : C47_statement) : findTargets false (.list .list stmts) rules =
      some (report ownKeywords rules false none (callsIn stmts)) := by
  obtain ⟨n, st, hp, _⟩ := parseFile_total content
  have h2 := ho
  simp only [outcome, hp, Option.map_some, Option.some.injEq, Prod.mk.injEq] at h2
  obtain ⟨rfl, herr⟩ := h2
  exact h content stmts st rules hp herr

/-- The keyword arguments of a call that is an argument are taken as those of the outer one. -/
theorem C47_counterexample : ¬ C47_statement := by
  intro h
  have ho : outcome c!"r(f(name=\"x\"))" = some (.list .list [.call (.ident c!"r") (.list .tuple
      [.call (.ident c!"f") (.list .tuple [.assign (.ident c!"name") (.str c!"x" false false)])])], []) := by
    decide +kernel
  have h1 := search_concrete (rules := [c!"r"]) ho h
  revert h1
  decide +kernel

/-- A rule within an assignment is not seen. -/
theorem C47_assignment_counterexample : ¬ C47_statement := by
  intro h
  have ho : outcome c!"x=r(name=\"x\")" = some (.list .list [.assign (.ident c!"x")
      (.call (.ident c!"r") (.list .tuple [.assign (.ident c!"name") (.str c!"x" false false)]))], []) := by
    decide +kernel
  have h1 := search_concrete (rules := [c!"r"]) ho h
  revert h1
  decide +kernel

/-- **C47** (a), exactly what is reported for any tree: the calls that are not part of an
assignment or of another call, each one once and in document order, with all the keyword
arguments found below it, of which the last one of the right kind counts. -/
theorem C47_visits (allowEmpty : Bool) (rules : List Str) (ast : Node)
    (h : ∀ s ∈ sites ast, Proper s) :
    findTargets allowEmpty ast rules = some (report kwArgsIn rules allowEmpty none (sites ast)) :=
  findTargets_report ast h

theorem ownKeywords_eq : ∀ {args : List Node}, (∀ a ∈ args, (∃ l v, a = .assign l v) ∨ kwArgs a = []) →
    kwArgsIn args = ownKeywords args
  | [], _ => rfl
  | a :: args, h => by
    have ih := ownKeywords_eq (args := args) (fun b hb => h b (by simp [hb]))
    rw [kwArgsIn, ih]
    rcases h a (by simp) with ⟨l, v, rfl⟩ | ha
    · rfl
    · rw [ha]
      cases a <;> first | rfl | simp [kwArgs] at ha

theorem report_congr {rules : List Str} {ae : Bool} {k1 k2 : List Node → List (Node × Node)} :
    ∀ {ss : List (Node × Node)}, (∀ s ∈ ss, Proper s) →
    (∀ fn ty args, (.ident fn, .list ty args) ∈ ss → k1 args = k2 args) →
    ∀ vis, report k1 rules ae vis ss = report k2 rules ae vis ss
  | [], _, _, _ => rfl
  | s :: ss, hs, h, vis => by
    have ih := report_congr (rules := rules) (ae := ae) (ss := ss) (fun s hm => hs s (by simp [hm]))
      (fun fn ty args hm => h fn ty args (by simp [hm]))
    obtain ⟨fn, ty, args, rfl⟩ := hs s (by simp)
    rw [report, report, h fn ty args (by simp), ih, ih]

/-- Calls that can have an effect: those of the rules of interest, and `package()`. -/
def interesting (rules : List Str) : Node × Node → Bool
  | (.ident fn, _) => fn = c!"package" || rules = [] || fn ∈ rules
  | _ => false

theorem report_filter {rules : List Str} {ae : Bool} {k : List Node → List (Node × Node)} :
    ∀ {ss : List (Node × Node)} (vis : Option ListRef),
    report k rules ae vis (ss.filter (interesting rules)) = report k rules ae vis ss
  | [], _ => rfl
  | (f, a) :: ss, vis => by
    have ih := fun v => report_filter (rules := rules) (ae := ae) (k := k) (ss := ss) v
    by_cases hi : interesting rules (f, a) = true
    · rw [List.filter_cons_of_pos hi]
      cases f <;> cases a <;> simp only [report, ih]
    · rw [List.filter_cons_of_neg hi, ih]
      cases f <;> cases a <;> try rfl
      simp only [interesting, Bool.or_eq_true, decide_eq_true_eq, not_or] at hi
      rw [report, if_neg hi.1.1, if_neg (fun h => h.1.elim hi.1.2 hi.2)]

/-- Calls of parsed files are calls of a named function. -/
theorem expr_proper {kw : Bool} {n : Node} (h : Expr kw n) : ∀ s ∈ sites n, Proper s := by
  have lists : ∀ xs : List Node, (∀ x ∈ xs, ∀ s ∈ sites x, Proper s) → ∀ s ∈ sitesIn xs, Proper s := by
    intro xs
    induction xs with
    | nil => intro _ s hs; simp [sitesIn] at hs
    | cons x xs ih =>
      intro h s hs
      rw [sitesIn, List.mem_append] at hs
      rcases hs with hs | hs
      · exact h x (by simp) s hs
      · exact ih (fun y hy => h y (by simp [hy])) s hs
  induction h with
  | str => intro s hs; simp [sites] at hs
  | int => intro s hs; simp [sites] at hs
  | ident => intro s hs; simp [sites] at hs
  | unary _ ih => exact ih
  | binop _ _ ih1 ih2 =>
    intro s hs
    rw [sites, List.mem_append] at hs
    exact hs.elim (ih1 s) (ih2 s)
  | sliceFrom _ _ ih1 ih2 =>
    intro s hs
    simp only [sites, List.mem_append, List.append_nil] at hs
    exact hs.elim (ih1 s) (ih2 s)
  | sliceTo _ _ ih1 ih2 =>
    intro s hs
    simp only [sites, List.mem_append, List.nil_append] at hs
    exact hs.elim (ih1 s) (ih2 s)
  | list _ ih => exact lists _ ih
  | compr _ ih => exact ih
  | ternary _ _ _ ih1 ih2 ih3 =>
    intro s hs
    simp only [sites, List.mem_append] at hs
    exact hs.elim (fun h => h.elim (ih1 s) (ih2 s)) (ih3 s)
  | onlyIf _ _ ih1 ih2 =>
    intro s hs
    simp only [sites, List.mem_append, List.append_nil] at hs
    exact hs.elim (ih1 s) (ih2 s)
  | call _ _ =>
    intro s hs
    simp only [sites, List.mem_singleton] at hs
    exact ⟨_, _, _, hs⟩
  | unaryHole => intro s hs; simp [sites] at hs
  | forHole _ _ _ ihx ih1 ih2 =>
    intro s hs
    simp only [sites, List.mem_append] at hs
    rcases hs with hs | hs | hs
    · exact ih1 s hs
    · refine lists _ (fun x hx => ?_) s hs
      by_cases hn : x = .null
      · subst hn; intro s hs; simp [sites] at hs
      · exact ihx x hx hn
    · exact ih2 s hs
  | keyword _ _ => intro s hs; simp [sites] at hs

theorem stmts_proper {stmts : List Node} (h : ∀ s ∈ stmts, Stmt s) :
    ∀ s ∈ sitesIn stmts, Proper s := by
  induction stmts with
  | nil => intro s hs; simp [sitesIn] at hs
  | cons x xs ih =>
    intro s hs
    rw [sitesIn, List.mem_append] at hs
    rcases hs with hs | hs
    · cases h x (by simp) with
      | expr he => exact expr_proper he s hs
      | assign => simp [sites] at hs
      | unpack => simp [sites] at hs
    · exact ih (fun y hy => h y (by simp [hy])) s hs

theorem parsed_proper {content : Str} {ast : Node} {st : PState} (h : parseFile content = some (ast, st)) :
    ∀ s ∈ sites ast, Proper s := by
  obtain ⟨stmts, rfl, hc⟩ := ParserCalls.parseFile_calls h
  exact ParserCalls.callsOkAll_sites stmts hc

/-- **C47** (b): searching a file works, whatever the text is (also if there are syntax errors) and whatever
the rules of interest are. -/
theorem C47_parsed (content : Str) (stmts : List Node) (st : PState) (allowEmpty : Bool)
    (rules : List Str) (h : parseFile content = some (.list .list stmts, st)) :
    findTargets allowEmpty (.list .list stmts) rules =
      some (report kwArgsIn rules allowEmpty none (sitesIn stmts)) :=
  C47_visits _ _ _ (parsed_proper h)

/-- **C47** (b'): the same after elaboration, which is when files are searched. -/
theorem C47_elaborated (glob : GlobFn) (content : Str) (stmts : List Node) (st : PState)
    (allowEmpty : Bool) (rules : List Str) (h : parseFile content = some (.list .list stmts, st))
    (herr : st.errs = []) (hcall : ∀ f ∈ Meaning.calledIn stmts, f ∉ Meaning.assigned stmts) :
    ∃ out, elabFile glob (.list .list stmts) = some (.list .list out) ∧
      findTargets allowEmpty (.list .list out) rules =
        some (report kwArgsIn rules allowEmpty none (sitesIn out)) := by
  obtain ⟨r, hr, hq⟩ := walks_stmts glob stmts [] (by intro x m hm; simp [Vars.find] at hm)
    (file_stmts h herr) (fun _ _ => rfl) hcall
  exact ⟨r.1, by simp [elabFile, walk, hr],
    C47_visits _ _ _ (by rw [sites]; exact stmts_proper hq)⟩

/-- **C47** (b''): the same for all texts, if the evaluation comes to an end (see C32). -/
theorem C47_evaluated (glob : GlobFn) (content : Str) (ast out : Node) (st : PState)
    (allowEmpty : Bool) (rules : List Str) (h : parseFile content = some (ast, st))
    (he : elabFile glob ast = some out) :
    findTargets allowEmpty out rules = some (report kwArgsIn rules allowEmpty none (sites out)) := by
  obtain ⟨stmts, rfl, hc⟩ := ParserCalls.parseFile_calls h
  obtain ⟨xs, rfl, hx⟩ := ParserCalls.elabFile_calls hc he
  exact C47_visits _ _ _ (ParserCalls.callsOkAll_sites xs hx)

/-- **C47** (c), the full statement for files in which the calls of interest are statements or
parts of statements of their own, and no positional argument of a call contains a keyword
argument (missing: the cases of the counterexamples above). -/
theorem C47_own_attributes_partial (content : Str) (stmts : List Node) (st : PState)
    (rules : List Str) (h : parseFile content = some (.list .list stmts, st))
    (hown : (callsIn stmts).filter (interesting rules) = (sitesIn stmts).filter (interesting rules))
    (hpos : ∀ fn ty args, (.ident fn, .list ty args) ∈ sitesIn stmts →
      ∀ a ∈ args, (∃ l v, a = .assign l v) ∨ kwArgs a = []) :
    findTargets false (.list .list stmts) rules =
      some (report ownKeywords rules false none (callsIn stmts)) := by
  rw [C47_parsed content stmts st false rules h, ← report_filter (ss := callsIn stmts), hown,
    report_filter]
  congr 1
  exact report_congr (parsed_proper h)
    (fun fn ty args hm => ownKeywords_eq (hpos fn ty args hm)) none

/-- A file with two rules of interest, one rule without a name and one of another kind. -/
example : search false [c!"cc_library", c!"alias"]
      c!"package(default_visibility=[\"//v\"])\ncc_library(name=\"a\",name=\"b\",srcs=[\"s\"],alwayslink=False)\nx(name=\"n\")\ncc_library(srcs=[])\nalias(name=\"c\",actual=\":b\",visibility=[])" =
    some [{ node := .call (.ident c!"cc_library") (.list .tuple [
              .assign (.ident c!"name") (.str c!"a" false false),
              .assign (.ident c!"name") (.str c!"b" false false),
              .assign (.ident c!"srcs") (.list .list [.str c!"s" false false]),
              .assign (.ident c!"alwayslink") (.ident c!"False")])
            rule := c!"cc_library", name := c!"b", srcs := some (.list, [.str c!"s" false false]),
            visibility := some (.list, [.str c!"//v" false false]), alwayslink := true },
          { node := .call (.ident c!"alias") (.list .tuple [
              .assign (.ident c!"name") (.str c!"c" false false),
              .assign (.ident c!"actual") (.str c!":b" false false),
              .assign (.ident c!"visibility") (.list .list [])])
            rule := c!"alias", name := c!"c", actual := c!":b", hasActual := true, visibility := some (.list, []) }] := by
  decide +kernel

/-- With no rules requested, all calls are reported; with names not required, also the unnamed. -/
example : (search true [] c!"f(1)\ng(name=\"x\",deps=3)").map (·.map fun r => (r.rule, r.name, r.deps.isSome)) =
    some [(c!"f", [], false), (c!"g", c!"x", false)] := by
  decide +kernel

/-- The assumptions of `C47_own_attributes_partial` are met by a file with `glob()`. -/
example : ∃ stmts, outcome c!"r(name=\"x\",srcs=glob([\"a\"]))" = some (.list .list stmts, []) ∧
    (callsIn stmts).filter (interesting [c!"r"]) = (sitesIn stmts).filter (interesting [c!"r"]) ∧
    (callsIn stmts).length = 2 ∧
    ∀ fn ty args, (.ident fn, .list ty args) ∈ sitesIn stmts →
      ∀ a ∈ args, (∃ l v, a = .assign l v) ∨ kwArgs a = [] := by
  refine ⟨[.call (.ident c!"r") (.list .tuple [.assign (.ident c!"name") (.str c!"x" false false),
    .assign (.ident c!"srcs") (.call (.ident c!"glob") (.list .tuple [.list .list [.str c!"a" false false]]))])],
    by decide +kernel, by decide +kernel, by decide +kernel, ?_⟩
  intro fn ty args hm a ha
  simp only [sitesIn, sites, List.append_nil, List.mem_singleton, Prod.mk.injEq, Node.list.injEq] at hm
  rw [hm.2.2] at ha
  simp only [List.mem_cons, List.not_mem_nil, or_false] at ha
  rcases ha with rfl | rfl <;> exact Or.inl ⟨_, _, rfl⟩

end Props
end Bant
