import Verif.Spec.Located
import Verif.Lemmas.LocatedQuery

/-! The rules that are found, by their calls. -/
namespace Bant
namespace Located
open LocatedSpec

/-- The attributes by keyword arguments. -/
def fromKeywords (kws : List (Tree × Tree)) (r : Rule) : Rule := kws.foldl (fun r kw => extractQueryInfo r kw.1 kw.2) r

theorem fromKeywords_append (a b : List (Tree × Tree)) (r : Rule) :
    fromKeywords (a ++ b) r = fromKeywords b (fromKeywords a r) := List.foldl_append ..

/-- What happens to the state in the arguments of a call. -/
structure Inner (f g : Finder) (kws : List (Tree × Tree)) : Prop where
  relevancy : g.relevancy = f.relevancy
  found : g.found = f.found
  current : f.relevancy = .userQuery → g.current = fromKeywords kws f.current

theorem Inner.refl (f : Finder) : Inner f f [] := ⟨rfl, rfl, fun _ => rfl⟩

theorem Inner.trans {f g h : Finder} {a b : List (Tree × Tree)} (h1 : Inner f g a) (h2 : Inner g h b) :
    Inner f h (a ++ b) :=
  ⟨h2.relevancy.trans h1.relevancy, h2.found.trans h1.found, fun hu => by
    rw [fromKeywords_append, ← h1.current hu, h2.current (h1.relevancy.trans hu)]⟩

mutual
theorem visit_inner (oi : List Str) (allow : Bool) : ∀ (f : Finder) (t : Tree) (g : Finder),
    f.relevancy ≠ .notRelevant → visit oi allow f t = some g → Inner f g (kwArgs t)
  | f, .null, g, hf, h => by cases h; exact .refl f
  | f, .str _ _ _, g, hf, h => by cases h; exact .refl f
  | f, .int _ _, g, hf, h => by cases h; exact .refl f
  | f, .ident _, g, hf, h => by cases h; exact .refl f
  | f, .unary _ e, g, hf, h => visit_inner oi allow f e g hf (by simpa only [visit] using h)
  | f, .binop _ _ a b, g, hf, h => by
    simp only [visit] at h
    cases h1 : visit oi allow f a with
    | none => rw [h1] at h; cases h
    | some k =>
      simp only [h1] at h
      have i1 := visit_inner oi allow f a k hf h1
      exact i1.trans (visit_inner oi allow k b g (by rw [i1.relevancy]; exact hf) h)
  | f, .list _ xs, g, hf, h => visits_inner oi allow f xs g hf (by simpa only [visit] using h)
  | f, .compr _ e, g, hf, h => visit_inner oi allow f e g hf (by simpa only [visit] using h)
  | f, .ternary a b c, g, hf, h => by
    simp only [visit] at h
    cases h1 : visit oi allow f a with
    | none => rw [h1] at h; cases h
    | some k =>
      simp only [h1] at h
      cases h2 : visit oi allow k b with
      | none => rw [h2] at h; cases h
      | some l =>
        simp only [h2] at h
        have i1 := visit_inner oi allow f a k hf h1
        have hk : k.relevancy ≠ .notRelevant := by rw [i1.relevancy]; exact hf
        have i2 := visit_inner oi allow k b l hk h2
        exact i1.trans (i2.trans (visit_inner oi allow l c g (by rw [i2.relevancy]; exact hk) h))
  | f, .assign lhs value, g, hf, h => by
    simp only [visit] at h
    split at h <;> cases h
    · rename_i hr
      exact ⟨rfl, rfl, fun hu => by rw [hu] at hr; cases hr⟩
    · exact ⟨rfl, rfl, fun _ => rfl⟩
    · rename_i hr
      exact absurd hr hf
  | f, .call fn args, g, hf, h => by
    rw [visit_call_eq, if_neg hf] at h
    exact visit_inner oi allow f args g hf h
theorem visits_inner (oi : List Str) (allow : Bool) : ∀ (f : Finder) (ts : List Tree) (g : Finder),
    f.relevancy ≠ .notRelevant → visits oi allow f ts = some g → Inner f g (kwArgsIn ts)
  | f, [], g, hf, h => by cases h; exact .refl f
  | f, t :: ts, g, hf, h => by
    simp only [visits] at h
    cases h1 : visit oi allow f t with
    | none => rw [h1] at h; cases h
    | some k =>
      simp only [h1] at h
      have i1 := visit_inner oi allow f t k hf h1
      exact i1.trans (visits_inner oi allow k ts g (by rw [i1.relevancy]; exact hf) h)
end

/-- The rule is from one of the calls. -/
def FromSite (oi : List Str) (allow : Bool) (ss : List (Tree × Tree)) (r : Rule) : Prop :=
  ∃ kind ty xs, (Tree.ident kind, Tree.list ty xs) ∈ ss ∧ r.node = .call (.ident kind) (.list ty xs) ∧
    r.rule = kind.text ∧ Query.isRelevant oi kind.text = .userQuery ∧
    r.name = (last c!"name" text (kwArgsIn xs)).getD {} ∧
    r.deps.map (·.2) = last c!"deps" elements (kwArgsIn xs) ∧ (allow = false → r.name.text ≠ [])

theorem FromSite.mono {oi : List Str} {allow : Bool} {ss ss' : List (Tree × Tree)} {r : Rule}
    (h : FromSite oi allow ss r) (hs : ∀ s ∈ ss, s ∈ ss') : FromSite oi allow ss' r := by
  obtain ⟨kind, ty, xs, h1, h2⟩ := h
  exact ⟨kind, ty, xs, hs _ h1, h2⟩

/-- What happens to the state outside of calls. -/
structure Outer (oi : List Str) (allow : Bool) (f g : Finder) (ss : List (Tree × Tree)) : Prop where
  relevancy : g.relevancy = .notRelevant
  found : ∀ r ∈ g.found, r ∈ f.found ∨ FromSite oi allow ss r

theorem Outer.trans {oi : List Str} {allow : Bool} {f g h : Finder} {a b : List (Tree × Tree)}
    (h1 : Outer oi allow f g a) (h2 : Outer oi allow g h b) : Outer oi allow f h (a ++ b) := by
  refine ⟨h2.relevancy, fun r hr => ?_⟩
  rcases h2.found r hr with h | h
  · rcases h1.found r h with h | h
    · exact .inl h
    · exact .inr (h.mono fun s hs => List.mem_append_left _ hs)
  · exact .inr (h.mono fun s hs => List.mem_append_right _ hs)

theorem Outer.refl {oi : List Str} {allow : Bool} {f : Finder} (hf : f.relevancy = .notRelevant) :
    Outer oi allow f f [] := ⟨hf, fun _ h => .inl h⟩

theorem setScalar_name (r : Rule) (l : Str) (v : View) (n : Int) :
    (setScalar r l v n).name = if l = c!"name" then v else r.name := by
  unfold setScalar
  split
  · rfl
  · repeat' split
    all_goals rfl

theorem setScalar_kept (r : Rule) (l : Str) (v : View) (n : Int) :
    (setScalar r l v n).node = r.node ∧ (setScalar r l v n).rule = r.rule ∧ (setScalar r l v n).deps = r.deps := by
  unfold setScalar
  repeat' split
  all_goals exact ⟨rfl, rfl, rfl⟩

theorem setIdent_kept (r : Rule) (l i : Str) :
    (setIdent r l i).node = r.node ∧ (setIdent r l i).rule = r.rule ∧ (setIdent r l i).deps = r.deps ∧
      (setIdent r l i).name = r.name := by
  unfold setIdent
  repeat' split
  all_goals exact ⟨rfl, rfl, rfl, rfl⟩

theorem setList_kept (r : Rule) (l : Str) (x : ListRef) :
    (setList r l x).node = r.node ∧ (setList r l x).rule = r.rule ∧ (setList r l x).name = r.name := by
  unfold setList
  repeat' split
  all_goals exact ⟨rfl, rfl, rfl⟩

theorem setList_deps (r : Rule) (l : Str) (x : ListRef) :
    (setList r l x).deps = if l = c!"deps" then some x else r.deps := by
  by_cases h : l = c!"deps"
  · subst h; rfl
  · rw [if_neg h]
    unfold setList
    rw [if_neg h]
    repeat' split
    all_goals rfl

theorem extract_name (r : Rule) (kw : Tree × Tree) :
    (extractQueryInfo r kw.1 kw.2).name = (value c!"name" text kw).getD r.name := by
  obtain ⟨l, v⟩ := kw
  cases l <;> try rfl
  rename_i k
  by_cases hk : k.text = c!"name" <;>
    cases v <;> simp only [value, extractQueryInfo, text, hk, if_true, if_false, Option.getD_some, Option.getD_none,
      setScalar_name, (setIdent_kept _ _ _).2.2.2, (setList_kept _ _ _).2.2]

theorem extract_deps (r : Rule) (kw : Tree × Tree) :
    (extractQueryInfo r kw.1 kw.2).deps.map (·.2) = (value c!"deps" elements kw).or (r.deps.map (·.2)) := by
  obtain ⟨l, v⟩ := kw
  cases l <;> try rfl
  rename_i k
  by_cases hk : k.text = c!"deps" <;>
    cases v <;> simp only [value, extractQueryInfo, elements, hk, if_true, if_false, Option.some_or, Option.none_or,
      (setScalar_kept _ _ _ _).2.2, (setIdent_kept _ _ _).2.2.1, setList_deps, Option.map_some]

theorem fromKeywords_name (kws : List (Tree × Tree)) (r : Rule) :
    (fromKeywords kws r).name = (last c!"name" text kws).getD r.name := by
  induction kws generalizing r with
  | nil => rfl
  | cons kw kws ih =>
    have h := ih (extractQueryInfo r kw.1 kw.2)
    rw [extract_name] at h
    unfold fromKeywords at h ⊢
    rw [List.foldl_cons, h]
    unfold last
    rw [List.reverse_cons, List.findSome?_append, List.findSome?_singleton]
    cases List.findSome? _ kws.reverse <;> simp

theorem fromKeywords_deps (kws : List (Tree × Tree)) (r : Rule) :
    (fromKeywords kws r).deps.map (·.2) = (last c!"deps" elements kws).or (r.deps.map (·.2)) := by
  induction kws generalizing r with
  | nil => rfl
  | cons kw kws ih =>
    have h := ih (extractQueryInfo r kw.1 kw.2)
    rw [extract_deps] at h
    unfold fromKeywords at h ⊢
    rw [List.foldl_cons, h]
    unfold last
    rw [List.reverse_cons, List.findSome?_append, List.findSome?_singleton]
    cases List.findSome? _ kws.reverse <;> simp

theorem extract_kept (r : Rule) (l v : Tree) :
    (extractQueryInfo r l v).node = r.node ∧ (extractQueryInfo r l v).rule = r.rule := by
  cases l <;> try exact ⟨rfl, rfl⟩
  cases v <;> try exact ⟨rfl, rfl⟩
  · exact ⟨(setScalar_kept _ _ _ _).1, (setScalar_kept _ _ _ _).2.1⟩
  · exact ⟨(setScalar_kept _ _ _ _).1, (setScalar_kept _ _ _ _).2.1⟩
  · exact ⟨(setIdent_kept _ _ _).1, (setIdent_kept _ _ _).2.1⟩
  · exact ⟨(setList_kept _ _ _).1, (setList_kept _ _ _).2.1⟩

theorem fromKeywords_kept (kws : List (Tree × Tree)) (r : Rule) :
    (fromKeywords kws r).node = r.node ∧ (fromKeywords kws r).rule = r.rule := by
  induction kws generalizing r with
  | nil => exact ⟨rfl, rfl⟩
  | cons kw kws ih =>
    have h := ih (extractQueryInfo r kw.1 kw.2)
    rw [(extract_kept r kw.1 kw.2).1, (extract_kept r kw.1 kw.2).2] at h
    exact h

theorem inform_found {oi : List Str} {allow : Bool} {ss : List (Tree × Tree)} {f : Finder}
    (h : allow = true ∨ f.current.name.text ≠ [] → ∀ r : Rule, r.node = f.current.node → r.rule = f.current.rule →
      r.name = f.current.name → r.deps = f.current.deps → FromSite oi allow ss r) :
    ∀ r ∈ (informCaller allow f).found, r ∈ f.found ∨ FromSite oi allow ss r := by
  unfold informCaller
  split
  · intro r hr; exact .inl hr
  · rename_i hn
    intro r hr
    rcases List.mem_append.1 hr with hr | hr
    · exact .inl hr
    · refine .inr ?_
      have hc : allow = true ∨ f.current.name.text ≠ [] := by
        cases allow with
        | true => exact .inl rfl
        | false =>
          refine .inr fun he => hn ?_
          simp [he]
      rw [List.mem_singleton.1 hr]
      refine h hc _ ?_ ?_ ?_ ?_ <;> (repeat' split) <;> rfl

theorem visitCall_outer (oi : List Str) (allow : Bool) (f : Finder) (fn args : Tree) (g : Finder)
    (hf : f.relevancy = .notRelevant) (h : visit oi allow f (.call fn args) = some g) :
    Outer oi allow f g [(fn, args)] := by
  rw [visit_call_eq, if_pos hf] at h
  cases fn <;> simp only at h <;> try (cases h; done)
  rename_i name
  by_cases hr : Query.isRelevant oi name.text = .notRelevant
  · simp only [if_pos hr] at h
    cases h; exact ⟨hf, fun _ h => .inl h⟩
  · simp only [if_neg hr] at h
    cases args <;> simp only at h <;> try (cases h; done)
    rename_i ty xs
    cases hk : visits oi allow { f with
          current := { node := .call (.ident name) (.list ty xs), rule := name.text }
          relevancy := Query.isRelevant oi name.text } xs with
    | none => rw [hk] at h; cases h
    | some k =>
      rw [hk] at h
      have hi := visits_inner oi allow _ xs k hr hk
      cases h
      refine ⟨rfl, ?_⟩
      by_cases hu : Query.isRelevant oi name.text = .userQuery
      · simp only [if_pos hu]
        have hc := hi.current hu
        have hkf : k.found = f.found := hi.found
        rw [← hkf]
        refine inform_found fun hn r h1 h2 h3 h4 => ?_
        refine ⟨name, ty, xs, .head _, ?_, ?_, hu, ?_, ?_, ?_⟩
        · rw [h1, hc, (fromKeywords_kept _ _).1]
        · rw [h2, hc, (fromKeywords_kept _ _).2]
        · rw [h3, hc, fromKeywords_name]
        · rw [h4, hc, fromKeywords_deps]; simp
        · intro ha
          rw [h3]
          rcases hn with hn | hn
          · rw [ha] at hn; cases hn
          · exact hn
      · simp only [if_neg hu]
        intro r hr
        exact .inl (by rw [show k.found = f.found from hi.found] at hr; exact hr)

mutual
theorem visit_outer (oi : List Str) (allow : Bool) : ∀ (f : Finder) (t : Tree) (g : Finder),
    f.relevancy = .notRelevant → visit oi allow f t = some g → Outer oi allow f g (sites t)
  | f, .null, g, hf, h => by cases h; exact .refl hf
  | f, .str _ _ _, g, hf, h => by cases h; exact .refl hf
  | f, .int _ _, g, hf, h => by cases h; exact .refl hf
  | f, .ident _, g, hf, h => by cases h; exact .refl hf
  | f, .unary _ e, g, hf, h => visit_outer oi allow f e g hf (by simpa only [visit] using h)
  | f, .binop _ _ a b, g, hf, h => by
    simp only [visit] at h
    cases h1 : visit oi allow f a with
    | none => rw [h1] at h; cases h
    | some k =>
      simp only [h1] at h
      have i1 := visit_outer oi allow f a k hf h1
      exact i1.trans (visit_outer oi allow k b g i1.relevancy h)
  | f, .list _ xs, g, hf, h => visits_outer oi allow f xs g hf (by simpa only [visit] using h)
  | f, .compr _ e, g, hf, h => visit_outer oi allow f e g hf (by simpa only [visit] using h)
  | f, .ternary a b c, g, hf, h => by
    simp only [visit] at h
    cases h1 : visit oi allow f a with
    | none => rw [h1] at h; cases h
    | some k =>
      simp only [h1] at h
      cases h2 : visit oi allow k b with
      | none => rw [h2] at h; cases h
      | some l =>
        simp only [h2] at h
        have i1 := visit_outer oi allow f a k hf h1
        have i2 := visit_outer oi allow k b l i1.relevancy h2
        exact i1.trans (i2.trans (visit_outer oi allow l c g i2.relevancy h))
  | f, .assign lhs value, g, hf, h => by
    simp only [visit, hf] at h
    cases h; exact .refl hf
  | f, .call fn args, g, hf, h => visitCall_outer oi allow f fn args g hf h
theorem visits_outer (oi : List Str) (allow : Bool) : ∀ (f : Finder) (ts : List Tree) (g : Finder),
    f.relevancy = .notRelevant → visits oi allow f ts = some g → Outer oi allow f g (sitesIn ts)
  | f, [], g, hf, h => by cases h; exact .refl hf
  | f, t :: ts, g, hf, h => by
    simp only [visits] at h
    cases h1 : visit oi allow f t with
    | none => rw [h1] at h; cases h
    | some k =>
      simp only [h1] at h
      have i1 := visit_outer oi allow f t k hf h1
      exact i1.trans (visits_outer oi allow k ts g i1.relevancy h)
end

/-- The rules that are found are calls, with name and dependencies from their keyword arguments. -/
theorem findTargets_sites {allow : Bool} {t : Tree} {rules : List Str} {rs : List Rule}
    (h : findTargets allow t rules = some rs) : ∀ r ∈ rs, FromSite rules allow (sites t) r := by
  unfold findTargets at h
  obtain ⟨f, hf, rfl⟩ := Option.map_eq_some_iff.1 h
  intro r hr
  rcases (visit_outer rules allow {} t f rfl hf).found r hr with h | h
  · cases h
  · exact h

theorem strings_texts {xs : List Tree} {vs : List View} (h : strings xs = some vs) : vs = texts xs := by
  induction xs generalizing vs with
  | nil => cases h; rfl
  | cons x xs ih =>
    cases x <;> simp only [strings] at h <;> try exact ih h
    · cases h
    all_goals
      unfold texts at ih ⊢
      rw [List.filterMap_cons]
      split at h
      · rename_i he
        rw [ih h]
        simp [LocatedSpec.text, he]
      · rename_i he
        obtain ⟨ws, hws, rfl⟩ := Option.map_eq_some_iff.1 h
        rw [ih hws]
        simp [LocatedSpec.text, he]

end Located
end Bant
