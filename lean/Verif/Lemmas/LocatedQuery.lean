import Verif.Lemmas.LocatedElab

/-! The search for rules with places is the search for rules; its texts are texts of the tree. -/
namespace Bant
namespace Located

theorem strings_plain (xs : List Tree) :
    Query.strings (plains xs) = (strings xs).map (·.map View.text) := by
  induction xs with
  | nil => rfl
  | cons x xs ih =>
    cases x <;> simp only [plains, Tree.plain, Query.strings, strings, ih, Option.map_none]
    all_goals
      split
      · rfl
      · cases strings xs <;> rfl

theorem stringList_plain (l : Option ListRef) :
    Query.stringList (plainRef l) = (stringList l).map (·.map View.text) := by
  cases l with
  | none => rfl
  | some r => exact strings_plain r.2

/-- The state of the search without places. -/
def Finder.plain (f : Finder) : Query.Finder where
  defaultVisibility := plainRef f.defaultVisibility
  current := f.current.plain
  relevancy := f.relevancy
  found := f.found.map Rule.plain

theorem setScalar_plain (r : Rule) (lhs : Str) (v : View) (num : Int) :
    Query.setScalar r.plain lhs v.text num = (setScalar r lhs v num).plain := by
  unfold Query.setScalar setScalar
  simp only [apply_ite Rule.plain]
  rfl

theorem setList_plain (r : Rule) (lhs : Str) (l : ListRef) :
    Query.setList r.plain lhs (l.1, plains l.2) = (setList r lhs l).plain := by
  unfold Query.setList setList
  simp only [apply_ite Rule.plain]
  rfl

theorem setIdent_plain (r : Rule) (lhs id : Str) :
    Query.setIdent r.plain lhs id = (setIdent r lhs id).plain := by
  unfold Query.setIdent setIdent
  simp only [apply_ite Rule.plain]
  rfl

theorem extractQueryInfo_plain (r : Rule) (lhs value : Tree) :
    Query.extractQueryInfo r.plain lhs.plain value.plain = (extractQueryInfo r lhs value).plain := by
  cases lhs <;> try rfl
  cases value <;> simp only [Tree.plain, Query.extractQueryInfo, extractQueryInfo, setScalar_plain, setIdent_plain]
  exact setList_plain _ _ (_, _)

theorem extractPackageInfo_plain (vis : Option ListRef) (lhs value : Tree) :
    Query.extractPackageInfo (plainRef vis) lhs.plain value.plain = plainRef (extractPackageInfo vis lhs value) := by
  cases lhs <;> try rfl
  cases value <;> simp only [Tree.plain, Query.extractPackageInfo, extractPackageInfo]
  split <;> rfl

theorem noHdrs_plain (r : Rule) : Query.noHdrs r.plain = noHdrs r := by
  unfold Query.noHdrs noHdrs
  simp only [Rule.plain]
  cases r.hdrs with
  | none => rfl
  | some l => obtain ⟨ty, xs⟩ := l; cases xs <;> rfl

theorem informCaller_plain (allow : Bool) (f : Finder) :
    Query.informCaller allow f.plain = (informCaller allow f).plain := by
  have h2 : f.plain.current = f.current.plain := rfl
  have h3 : f.current.plain.rule = f.current.rule := rfl
  have h4 : f.current.plain.visibility.isNone = f.current.visibility.isNone := by
    simp only [Rule.plain, plainRef, Option.isNone_map]
  have h5 : f.current.plain.name = f.current.name.text := rfl
  unfold Query.informCaller informCaller
  simp only [h2, noHdrs_plain, h3, h5]
  by_cases c0 : (!allow && f.current.name.text.isEmpty) = true
  · simp only [if_pos c0]
  · simp only [if_neg c0]
    by_cases c1 : (decide (f.current.rule = c!"cc_library") && noHdrs f.current) = true
    · simp only [if_pos c1, h4]
      by_cases c2 : f.current.visibility.isNone = true
      · simp only [if_pos c2, Finder.plain, Rule.plain, List.map_append, List.map_cons, List.map_nil]
      · simp only [if_neg c2, Finder.plain, Rule.plain, List.map_append, List.map_cons, List.map_nil]
    · simp only [if_neg c1, h4]
      by_cases c2 : f.current.visibility.isNone = true
      · simp only [if_pos c2, Finder.plain, Rule.plain, List.map_append, List.map_cons, List.map_nil]
      · simp only [if_neg c2, Finder.plain, Rule.plain, List.map_append, List.map_cons, List.map_nil]

/-- The end of the visit of a call. -/
def calledWith (allow : Bool) (rel : Query.Relevancy) : Option Finder → Option Finder
  | none => none
  | some f =>
    let f := if rel = .userQuery then informCaller allow f else f
    some { f with relevancy := .notRelevant }

/-- The end of the visit of a call, without places. -/
def queriedWith (allow : Bool) (rel : Query.Relevancy) : Option Query.Finder → Option Query.Finder
  | none => none
  | some f =>
    let f := if rel = .userQuery then Query.informCaller allow f else f
    some { f with relevancy := .notRelevant }

theorem call_plain (allow : Bool) (rel : Query.Relevancy) (o : Option Finder) (o' : Option Query.Finder)
    (h : o' = o.map Finder.plain) : queriedWith allow rel o' = (calledWith allow rel o).map Finder.plain := by
  subst h
  cases o with
  | none => rfl
  | some g =>
    simp only [Option.map_some, informCaller_plain, calledWith, queriedWith]
    by_cases hc : rel = .userQuery
    · simp only [if_pos hc]; rfl
    · simp only [if_neg hc]; rfl

theorem visit_call_eq (oi : List Str) (allow : Bool) (f : Finder) (fn args : Tree) :
    visit oi allow f (.call fn args) =
      if f.relevancy = .notRelevant then
        match fn with
        | .ident name =>
          if Query.isRelevant oi name.text = .notRelevant then some f
          else
            match args with
            | .list ty xs => calledWith allow (Query.isRelevant oi name.text) (visits oi allow { f with
                current := { node := .call (.ident name) (.list ty xs), rule := name.text }
                relevancy := Query.isRelevant oi name.text } xs)
            | _ => none
        | _ => none
      else visit oi allow f args := by
  cases fn <;> cases args <;> rfl

theorem query_call_eq (oi : List Str) (allow : Bool) (f : Query.Finder) (fn args : Node) :
    Query.visit oi allow f (.call fn args) =
      if f.relevancy = .notRelevant then
        match fn with
        | .ident name =>
          if Query.isRelevant oi name = .notRelevant then some f
          else
            match args with
            | .list ty xs => queriedWith allow (Query.isRelevant oi name) (Query.visits oi allow { f with
                current := { node := .call (.ident name) (.list ty xs), rule := name }
                relevancy := Query.isRelevant oi name } xs)
            | _ => none
        | _ => none
      else Query.visit oi allow f args := by
  cases fn <;> cases args <;> rfl

theorem visitCall_plain (oi : List Str) (allow : Bool) (f : Finder) (fn args : Tree)
    (hargs : ∀ g : Finder, Query.visit oi allow g.plain args.plain = (visit oi allow g args).map Finder.plain) :
    Query.visit oi allow f.plain (Tree.call fn args).plain = (visit oi allow f (.call fn args)).map Finder.plain := by
  have h1 : f.plain.relevancy = f.relevancy := rfl
  rw [visit_call_eq, Tree.plain, query_call_eq, h1]
  by_cases hrel : f.relevancy = .notRelevant
  · simp only [if_pos hrel]
    cases fn <;> try rfl
    rename_i name
    simp only [Tree.plain]
    by_cases hr : Query.isRelevant oi name.text = .notRelevant
    · simp only [if_pos hr, Option.map_some]
    · simp only [if_neg hr]
      cases args <;> try rfl
      rename_i ty xs
      simp only [Tree.plain]
      have ih := hargs { f with
            current := { node := .call (.ident name) (.list ty xs), rule := name.text }
            relevancy := Query.isRelevant oi name.text }
      simp only [visit, Query.visit, Tree.plain] at ih
      exact call_plain allow (Query.isRelevant oi name.text) _ _ ih
  · simp only [if_neg hrel]
    exact hargs f

mutual
theorem visit_plain (oi : List Str) (allow : Bool) : ∀ (f : Finder) (t : Tree),
    Query.visit oi allow f.plain t.plain = (visit oi allow f t).map Finder.plain
  | f, .null => rfl
  | f, .str _ _ _ => rfl
  | f, .int _ _ => rfl
  | f, .ident _ => rfl
  | f, .unary _ e => by simp only [visit, Query.visit, Tree.plain, visit_plain oi allow f e]
  | f, .binop _ _ a b => by
    simp only [visit, Query.visit, Tree.plain, visit_plain oi allow f a]
    cases visit oi allow f a with
    | none => rfl
    | some g => exact visit_plain oi allow g b
  | f, .list _ xs => by simp only [visit, Query.visit, Tree.plain, visits_plain oi allow f xs]
  | f, .compr _ e => by simp only [visit, Query.visit, Tree.plain, visit_plain oi allow f e]
  | f, .ternary a b c => by
    simp only [visit, Query.visit, Tree.plain, visit_plain oi allow f a]
    cases visit oi allow f a with
    | none => rfl
    | some g =>
      simp only [Option.map_some, visit_plain oi allow g b]
      cases visit oi allow g b with
      | none => rfl
      | some g => exact visit_plain oi allow g c
  | f, .assign lhs value => by
    have h1 : f.plain.relevancy = f.relevancy := rfl
    have h2 : f.plain.defaultVisibility = plainRef f.defaultVisibility := rfl
    have h3 : f.plain.current = f.current.plain := rfl
    simp only [visit, Query.visit, Tree.plain, h1, h2, h3, extractPackageInfo_plain, extractQueryInfo_plain]
    cases f.relevancy <;> rfl
  | f, .call fn args => visitCall_plain oi allow f fn args fun g => visit_plain oi allow g args
theorem visits_plain (oi : List Str) (allow : Bool) : ∀ (f : Finder) (ts : List Tree),
    Query.visits oi allow f.plain (plains ts) = (visits oi allow f ts).map Finder.plain
  | f, [] => rfl
  | f, t :: ts => by
    simp only [visits, Query.visits, plains, visit_plain oi allow f t]
    cases visit oi allow f t with
    | none => rfl
    | some g => exact visits_plain oi allow g ts
end

/-- The search with places finds what the search finds. -/
theorem findTargets_plain (allow : Bool) (t : Tree) (rules : List Str) :
    Query.findTargets allow t.plain rules = (findTargets allow t rules).map (·.map Rule.plain) := by
  unfold Query.findTargets findTargets
  rw [show ({} : Query.Finder) = ({} : Finder).plain from rfl, visit_plain]
  cases visit rules allow {} t <;> rfl

/-! ### The places -/

section
variable (p : View → Prop) (q : TokenType → Nat × Nat → Prop) (i : View → Prop)

/-- All texts in a list that may be missing have a property. -/
def RefAll (l : Option ListRef) : Prop := ∀ r, l = some r → AllOf p q i r.2

/-- All texts of a rule have a property. -/
structure RuleAll (r : Rule) : Prop where
  node : r.node.All p q i
  name : r.name.text ≠ [] → p r.name
  srcs : RefAll p q i r.srcs
  hdrs : RefAll p q i r.hdrs
  textualHdrs : RefAll p q i r.textualHdrs
  publicHdrs : RefAll p q i r.publicHdrs
  deps : RefAll p q i r.deps
  outs : RefAll p q i r.outs
  visibility : RefAll p q i r.visibility
  includes : RefAll p q i r.includes

/-- All texts in the state of the search have a property. -/
structure FinderAll (f : Finder) : Prop where
  vis : RefAll p q i f.defaultVisibility
  current : RuleAll p q i f.current
  found : ∀ r ∈ f.found, RuleAll p q i r

variable {p q i}

theorem refAll_none : RefAll p q i none := fun _ h => by cases h
theorem refAll_some {r : ListRef} (h : AllOf p q i r.2) : RefAll p q i (some r) := fun _ e => by cases e; exact h

theorem ruleAll_new {t : Tree} {rule : Str} (h : t.All p q i) : RuleAll p q i { node := t, rule := rule } :=
  ⟨h, fun h => absurd rfl h, refAll_none, refAll_none, refAll_none, refAll_none, refAll_none, refAll_none, refAll_none,
    refAll_none⟩

theorem setScalar_all {r : Rule} {lhs : Str} {v : View} {num : Int} (h : RuleAll p q i r) (hv : p v) :
    RuleAll p q i (setScalar r lhs v num) := by
  obtain ⟨h1, h2, h3, h4, h5, h6, h7, h8, h9, h10⟩ := h
  unfold setScalar
  split
  · exact ⟨h1, fun _ => hv, h3, h4, h5, h6, h7, h8, h9, h10⟩
  · repeat' (first | exact ⟨h1, h2, h3, h4, h5, h6, h7, h8, h9, h10⟩ | split)

theorem setList_all {r : Rule} {lhs : Str} {l : ListRef} (h : RuleAll p q i r) (hl : AllOf p q i l.2) :
    RuleAll p q i (setList r lhs l) := by
  obtain ⟨h1, h2, h3, h4, h5, h6, h7, h8, h9, h10⟩ := h
  have hl := refAll_some hl
  unfold setList
  repeat' (first
    | exact ⟨h1, h2, h3, h4, h5, h6, h7, h8, h9, h10⟩
    | exact ⟨h1, h2, hl, h4, h5, h6, h7, h8, h9, h10⟩
    | exact ⟨h1, h2, h3, hl, h5, h6, h7, h8, h9, h10⟩
    | exact ⟨h1, h2, h3, h4, hl, h6, h7, h8, h9, h10⟩
    | exact ⟨h1, h2, h3, h4, h5, hl, h7, h8, h9, h10⟩
    | exact ⟨h1, h2, h3, h4, h5, h6, hl, h8, h9, h10⟩
    | exact ⟨h1, h2, h3, h4, h5, h6, h7, hl, h9, h10⟩
    | exact ⟨h1, h2, h3, h4, h5, h6, h7, h8, hl, h10⟩
    | exact ⟨h1, h2, h3, h4, h5, h6, h7, h8, h9, hl⟩
    | split)

theorem setIdent_all {r : Rule} {lhs id : Str} (h : RuleAll p q i r) : RuleAll p q i (setIdent r lhs id) := by
  obtain ⟨h1, h2, h3, h4, h5, h6, h7, h8, h9, h10⟩ := h
  unfold setIdent
  repeat' (first | exact ⟨h1, h2, h3, h4, h5, h6, h7, h8, h9, h10⟩ | split)

theorem extractQueryInfo_all {r : Rule} {lhs value : Tree} (h : RuleAll p q i r) (hv : value.All p q i) :
    RuleAll p q i (extractQueryInfo r lhs value) := by
  cases lhs <;> try exact h
  cases value <;> try exact h
  · exact setScalar_all h hv
  · exact setScalar_all h hv
  · exact setIdent_all h
  · exact setList_all (l := (_, _)) h hv

theorem extractPackageInfo_all {vis : Option ListRef} {lhs value : Tree} (h : RefAll p q i vis) (hv : value.All p q i) :
    RefAll p q i (extractPackageInfo vis lhs value) := by
  cases lhs <;> try exact h
  cases value <;> try exact h
  simp only [extractPackageInfo]
  split
  · exact refAll_some (r := (_, _)) hv
  · exact h

theorem informCaller_all {allow : Bool} {f : Finder} (h : FinderAll p q i f) : FinderAll p q i (informCaller allow f) := by
  unfold informCaller
  split
  · exact h
  · have h1 : RuleAll p q i (if (decide (f.current.rule = c!"cc_library") && noHdrs f.current) = true
          then { f.current with alwayslink := true } else f.current) := by
      obtain ⟨h1, h2, h3, h4, h5, h6, h7, h8, h9, h10⟩ := h.current
      split <;> exact ⟨h1, h2, h3, h4, h5, h6, h7, h8, h9, h10⟩
    revert h1
    simp only
    generalize (if (decide (f.current.rule = c!"cc_library") && noHdrs f.current) = true
          then { f.current with alwayslink := true } else f.current) = r
    intro h1
    have h2 : RuleAll p q i (if r.visibility.isNone then { r with visibility := f.defaultVisibility } else r) := by
      obtain ⟨h1, h2, h3, h4, h5, h6, h7, h8, h9, h10⟩ := h1
      split
      · exact ⟨h1, h2, h3, h4, h5, h6, h7, h8, h.vis, h10⟩
      · exact ⟨h1, h2, h3, h4, h5, h6, h7, h8, h9, h10⟩
    refine ⟨h.vis, h2, ?_⟩
    intro x hx
    rcases List.mem_append.1 hx with hx | hx
    · exact h.found x hx
    · rw [List.mem_singleton.1 hx]; exact h2

theorem visitCall_all (oi : List Str) (allow : Bool) (f : Finder) (fn args : Tree) (g : Finder)
    (hargs : ∀ f g : Finder, FinderAll p q i f → args.All p q i → visit oi allow f args = some g → FinderAll p q i g)
    (hf : FinderAll p q i f) (ht : (Tree.call fn args).All p q i) (h : visit oi allow f (.call fn args) = some g) :
    FinderAll p q i g := by
  rw [visit_call_eq] at h
  by_cases hrel : f.relevancy = .notRelevant
  · simp only [if_pos hrel] at h
    cases fn <;> simp only at h <;> try (cases h; done)
    rename_i name
    by_cases hr : Query.isRelevant oi name.text = .notRelevant
    · simp only [if_pos hr] at h
      cases h; exact hf
    · simp only [if_neg hr] at h
      cases args <;> simp only at h <;> try (cases h; done)
      rename_i ty xs
      cases hk : visits oi allow { f with
            current := { node := .call (.ident name) (.list ty xs), rule := name.text }
            relevancy := Query.isRelevant oi name.text } xs with
      | none => rw [hk] at h; cases h
      | some k =>
        rw [hk] at h
        have hk' : FinderAll p q i k := by
          refine hargs _ k ?_ ht.2 (by simp only [visit]; exact hk)
          exact ⟨hf.vis, ruleAll_new ht, hf.found⟩
        have := informCaller_all (allow := allow) hk'
        cases h
        by_cases hu : Query.isRelevant oi name.text = .userQuery
        · simp only [if_pos hu]
          exact ⟨this.vis, this.current, this.found⟩
        · simp only [if_neg hu]
          exact ⟨hk'.vis, hk'.current, hk'.found⟩
  · simp only [if_neg hrel] at h
    exact hargs f g hf ht.2 h

mutual
theorem visit_all (oi : List Str) (allow : Bool) : ∀ (f : Finder) (t : Tree) (g : Finder),
    FinderAll p q i f → t.All p q i → visit oi allow f t = some g → FinderAll p q i g
  | f, .null, g, hf, ht, h => by cases h; exact hf
  | f, .str _ _ _, g, hf, ht, h => by cases h; exact hf
  | f, .int _ _, g, hf, ht, h => by cases h; exact hf
  | f, .ident _, g, hf, ht, h => by cases h; exact hf
  | f, .unary _ e, g, hf, ht, h => visit_all oi allow f e g hf ht (by simpa only [visit] using h)
  | f, .binop _ _ a b, g, hf, ht, h => by
    simp only [visit] at h
    cases h1 : visit oi allow f a with
    | none => rw [h1] at h; cases h
    | some k =>
      simp only [h1] at h
      exact visit_all oi allow k b g (visit_all oi allow f a k hf ht.2.1 h1) ht.2.2 h
  | f, .list _ xs, g, hf, ht, h => visits_all oi allow f xs g hf ht (by simpa only [visit] using h)
  | f, .compr _ e, g, hf, ht, h => visit_all oi allow f e g hf ht (by simpa only [visit] using h)
  | f, .ternary a b c, g, hf, ht, h => by
    simp only [visit] at h
    cases h1 : visit oi allow f a with
    | none => rw [h1] at h; cases h
    | some k =>
      simp only [h1] at h
      cases h2 : visit oi allow k b with
      | none => rw [h2] at h; cases h
      | some l =>
        simp only [h2] at h
        exact visit_all oi allow l c g (visit_all oi allow k b l (visit_all oi allow f a k hf ht.1 h1) ht.2.1 h2)
          ht.2.2 h
  | f, .assign lhs value, g, hf, ht, h => by
    simp only [visit] at h
    split at h <;> cases h
    · exact ⟨extractPackageInfo_all hf.vis ht.2, hf.current, hf.found⟩
    · exact ⟨hf.vis, extractQueryInfo_all hf.current ht.2, hf.found⟩
    · exact hf
  | f, .call fn args, g, hf, ht, h => visitCall_all oi allow f fn args g (fun f g => visit_all oi allow f args g) hf ht h
theorem visits_all (oi : List Str) (allow : Bool) : ∀ (f : Finder) (ts : List Tree) (g : Finder),
    FinderAll p q i f → AllOf p q i ts → visits oi allow f ts = some g → FinderAll p q i g
  | f, [], g, hf, ht, h => by cases h; exact hf
  | f, t :: ts, g, hf, ht, h => by
    simp only [visits] at h
    cases h1 : visit oi allow f t with
    | none => rw [h1] at h; cases h
    | some k =>
      simp only [h1] at h
      exact visits_all oi allow k ts g (visit_all oi allow f t k hf ht.1 h1) ht.2 h
end

/-- The texts of the rules are texts of the tree. -/
theorem findTargets_all {allow : Bool} {t : Tree} {rules : List Str} {rs : List Rule} (ht : t.All p q i)
    (h : findTargets allow t rules = some rs) : ∀ r ∈ rs, RuleAll p q i r := by
  unfold findTargets at h
  obtain ⟨f, hf, rfl⟩ := Option.map_eq_some_iff.1 h
  exact (visit_all rules allow {} t f ⟨refAll_none, ruleAll_new trivial, fun r hr => by cases hr⟩ ht hf).found

theorem strings_all {xs : List Tree} {vs : List View} (hx : AllOf p q i xs) (h : strings xs = some vs) :
    ∀ v ∈ vs, p v := by
  revert vs
  induction xs with
  | nil => intro vs h; cases h; simp
  | cons x xs ih =>
    intro vs h
    cases x <;> simp only [strings] at h <;> try exact ih hx.2 h
    · cases h
    all_goals
      split at h
      · exact ih hx.2 h
      · obtain ⟨ws, hws, rfl⟩ := Option.map_eq_some_iff.1 h
        intro v hv
        rcases List.mem_cons.1 hv with rfl | hv
        · exact hx.1
        · exact ih hx.2 hws v hv

theorem stringList_all {l : Option ListRef} {vs : List View} (hl : RefAll p q i l) (h : stringList l = some vs) :
    ∀ v ∈ vs, p v := by
  cases l with
  | none => cases h; simp
  | some r => exact strings_all (hl r rfl) h

end

end Located
end Bant
