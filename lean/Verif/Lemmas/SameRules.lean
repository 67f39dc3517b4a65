import Verif.Lemmas.LayoutCommand
import Verif.Spec.SameRules

/-! Lemmas about projects with the same rules: what is made of trees (C101). -/
namespace Bant
namespace RulesSpec
open Query Rules Headers Commands

/-! ### What is told about a rule -/

theorem strings_texts (xs : List Node) : strings (texts xs) = strings xs := by
  induction xs with
  | nil => rfl
  | cons x xs ih =>
    cases x <;> simp only [texts, List.filterMap_cons] <;> simp only [texts] at ih <;>
      simp only [strings, ih]

theorem stringList_textsOf (l : Option ListRef) : stringList (textsOf l) = stringList l := by
  cases l with
  | none => rfl
  | some l => exact strings_texts l.2

theorem stringList_same {l l' : Option ListRef} (h : textsOf l' = textsOf l) : stringList l' = stringList l := by
  rw [← stringList_textsOf l', h, stringList_textsOf]

/-- Rules of which the same is told. -/
structure Same (r r' : Query.Result) : Prop where
  rule : r'.rule = r.rule
  name : r'.name = r.name
  actual : r'.actual = r.actual
  hasActual : r'.hasActual = r.hasActual
  version : r'.version = r.version
  repoName : r'.repoName = r.repoName
  deprecation : r'.deprecation = r.deprecation
  includePrefix : r'.includePrefix = r.includePrefix
  stripIncludePrefix : r'.stripIncludePrefix = r.stripIncludePrefix
  alwayslink : r'.alwayslink = r.alwayslink
  testonly : r'.testonly = r.testonly
  srcs : stringList r'.srcs = stringList r.srcs
  hdrs : stringList r'.hdrs = stringList r.hdrs
  textualHdrs : stringList r'.textualHdrs = stringList r.textualHdrs
  publicHdrs : stringList r'.publicHdrs = stringList r.publicHdrs
  deps : stringList r'.deps = stringList r.deps
  outs : stringList r'.outs = stringList r.outs
  includes : stringList r'.includes = stringList r.includes
  visibility : textsOf r'.visibility = textsOf r.visibility
  node : (told r').node = (told r).node

theorem same_of {r r' : Query.Result} (h : told r' = told r) : Same r r' := by
  have f : ∀ {α : Type} (g : Query.Result → α), g (told r') = g (told r) := fun g => congrArg g h
  exact ⟨f (·.rule), f (·.name), f (·.actual), f (·.hasActual), f (·.version), f (·.repoName), f (·.deprecation), f (·.includePrefix),
    f (·.stripIncludePrefix), f (·.alwayslink), f (·.testonly), stringList_same (f (·.srcs)),
    stringList_same (f (·.hdrs)), stringList_same (f (·.textualHdrs)), stringList_same (f (·.publicHdrs)),
    stringList_same (f (·.deps)), stringList_same (f (·.outs)), stringList_same (f (·.includes)), f (·.visibility),
    f (·.node)⟩

/-! ### Lists of which the same is told -/

theorem mapAll_pair {α α' β γ : Type} {g : α → γ} {g' : α' → γ} {f : α → Option (List β)}
    {f' : α' → Option (List β)} (hf : ∀ x x', g' x' = g x → f' x' = f x) :
    ∀ {l : List α} {l' : List α'}, l'.map g' = l.map g → mapAll f' l' = mapAll f l
  | [], [], _ => rfl
  | [], _ :: _, h => by simp at h
  | _ :: _, [], h => by simp at h
  | x :: l, x' :: l', h => by
    simp only [List.map_cons, List.cons.injEq] at h
    rw [mapAll, mapAll, hf x x' h.1, mapAll_pair hf h.2]

theorem foldlM_pair {α α' γ σ : Type} {g : α → γ} {g' : α' → γ} {f : σ → α → Option σ} {f' : σ → α' → Option σ}
    (hf : ∀ s x x', g' x' = g x → f' s x' = f s x) :
    ∀ {l : List α} {l' : List α'} (s : σ), l'.map g' = l.map g → l'.foldlM f' s = l.foldlM f s
  | [], [], _, _ => rfl
  | [], _ :: _, _, h => by simp at h
  | _ :: _, [], _, h => by simp at h
  | x :: l, x' :: l', s, h => by
    simp only [List.map_cons, List.cons.injEq] at h
    rw [List.foldlM_cons, List.foldlM_cons, hf s x x' h.1]
    congr 1
    funext s'
    exact foldlM_pair hf s' h.2

theorem foldl_pair {α α' γ σ : Type} {g : α → γ} {g' : α' → γ} {f : σ → α → σ} {f' : σ → α' → σ}
    (hf : ∀ s x x', g' x' = g x → f' s x' = f s x) :
    ∀ {l : List α} {l' : List α'} (s : σ), l'.map g' = l.map g → l'.foldl f' s = l.foldl f s
  | [], [], _, _ => rfl
  | [], _ :: _, _, h => by simp at h
  | _ :: _, [], _, h => by simp at h
  | x :: l, x' :: l', s, h => by
    simp only [List.map_cons, List.cons.injEq] at h
    rw [List.foldl_cons, List.foldl_cons, hf s x x' h.1]
    exact foldl_pair hf _ h.2

/-! ### Trees -/

/-- What is found in a tree. -/
def view (u : Bool) (keep : Query.Result → BazelTarget → Nat → Bool) (t : Node) (ae : Bool) (rules : List Str) :
    Option (List (Query.Result × (BazelTarget → Nat → Bool))) :=
  if ae && !u then none else (findTargets ae t rules).map (·.map fun r => (told r, keep r))

/-- Which rules are found. -/
def picked (rules : List Str) (ae : Bool) (r : Query.Result) : Bool :=
  (rules.isEmpty || rules.contains r.rule) && (ae || !r.name.isEmpty)

theorem report_picked (kw : List Node → List (Node × Node)) (rules : List Str) (ae : Bool) :
    ∀ (ss : List (Node × Node)) (vis : Option ListRef),
      report kw rules ae vis ss = (report kw [] true vis ss).filter (picked rules ae)
  | [], vis => by rw [report, report]; rfl
  | (f, a) :: ss, vis => by
    have ih := fun v => report_picked kw rules ae ss v
    cases f <;> cases a <;> simp only [report, ih]
    next fn ty args =>
      split
      · rfl
      · simp only [true_or, and_self, if_true, List.filter_cons]
        have : picked rules ae (attributes vis fn (.list ty args) (kw args)) = true ↔
            (rules = [] ∨ fn ∈ rules) ∧ (ae = true ∨ (attributes vis fn (.list ty args) (kw args)).name ≠ []) := by
          simp [picked, attributes]
        by_cases hp : picked rules ae (attributes vis fn (.list ty args) (kw args)) = true
        · rw [if_pos (this.1 hp), if_pos hp]
        · rw [if_neg (fun h => hp (this.2 h)), if_neg hp]

theorem view_of {u : Bool} {keep : Query.Result → BazelTarget → Nat → Bool} {t : Node} (h : ∀ s ∈ sites t, Proper s) (ae : Bool)
    (rules : List Str) :
    view u keep t ae rules = if ae && !u then none else some ((rulesIn keep t).filter fun x => picked rules ae x.1) := by
  rw [view, findTargets_report t h, Option.map_some, rulesIn, List.filter_map, report_picked]
  rfl

theorem view_same {u : Bool} {keep keep' : Query.Result → BazelTarget → Nat → Bool} {t t' : Node} (h : ∀ s ∈ sites t, Proper s)
    (h' : ∀ s ∈ sites t', Proper s) (hs : SameRulesFor u keep keep' t t') : view u keep' t' = view u keep t := by
  funext ae rules
  rw [view_of h, view_of h']
  by_cases hu : (ae && !u) = true
  · rw [if_pos hu, if_pos hu]
  · rw [if_neg hu, if_neg hu]
    have key : ∀ l : List (Query.Result × (BazelTarget → Nat → Bool)), (l.filter fun x => picked rules ae x.1) =
        (l.filter fun x => u || x.1.name ≠ []).filter fun x => picked rules ae x.1 := by
      intro l
      rw [List.filter_filter]
      congr 1
      funext x
      cases ae <;> cases u <;> simp_all [picked]
    rw [key, key (rulesIn keep t), hs]

theorem sameRules_for {u : Bool} {keep keep' : Query.Result → BazelTarget → Nat → Bool} {t t' : Node}
    (h : SameRules keep keep' t t') : SameRulesFor u keep keep' t t' := by
  unfold SameRulesFor
  rw [h]

theorem sameEvaluated_for {u : Bool} {keep keep' : Query.Result → BazelTarget → Nat → Bool} {glob : Elab.GlobFn} {t t' : Node}
    (h : SameEvaluated keep keep' glob t t') : SameEvaluatedFor u keep keep' glob t t' := by
  rcases h with h | ⟨v, v', h1, h2, h3⟩
  · exact .inl h
  · exact .inr ⟨v, v', h1, h2, sameRules_for h3⟩

variable {u : Bool} {keep keep' : Query.Result → BazelTarget → Nat → Bool}

/-- Either nothing is found in both, or the same. -/
theorem found_same {t t' : Node} (h : view u keep' t' = view u keep t) (ae : Bool) (rules : List Str)
    (hae : ae = true → u = true := by intro e; cases e) :
    (findTargets ae t rules = none ∧ findTargets ae t' rules = none) ∨
      ∃ rs rs', findTargets ae t rules = some rs ∧ findTargets ae t' rules = some rs' ∧
        rs'.map (fun r => (told r, keep' r)) = rs.map fun r => (told r, keep r) := by
  have h := congrFun (congrFun h ae) rules
  have hu : ¬ (ae && !u) = true := by cases ae <;> cases u <;> simp_all
  simp only [view, if_neg hu] at h
  cases h1 : findTargets ae t rules with
  | none =>
    cases h2 : findTargets ae t' rules with
    | none => exact .inl ⟨rfl, rfl⟩
    | some rs => rw [h1, h2] at h; cases h
  | some rs =>
    cases h2 : findTargets ae t' rules with
    | none => rw [h1, h2] at h; cases h
    | some rs' =>
      rw [h1, h2] at h
      simp only [Option.map_some, Option.some.injEq] at h
      exact .inr ⟨rs, rs', rfl, rfl, h⟩

theorem forTargets_same {β : Type} {t t' : Node} (h : view u keep' t' = view u keep t) (rules : List Str)
    {f f' : Query.Result → Option (List β)} (hf : ∀ r r', Same r r' → keep' r' = keep r → f' r' = f r) :
    forTargets t' rules f' = forTargets t rules f := by
  unfold forTargets
  rcases found_same h false rules with ⟨h1, h2⟩ | ⟨rs, rs', h1, h2, h3⟩
  · rw [h1, h2]
  · rw [h1, h2]
    refine mapAll_pair (g := fun r => (told r, keep r)) (g' := fun r => (told r, keep' r)) ?_ h3
    intro r r' e
    simp only [Prod.mk.injEq] at e
    exact hf r r' (same_of e.1) e.2

/-! ### Files -/

/-- The packages, and what is found in there. -/
def views (u : Bool) (keep : Query.Result → BazelTarget → Nat → Bool) (l : Files) : List (BazelPackage × (Bool → List Str →
    Option (List (Query.Result × (BazelTarget → Nat → Bool))))) := l.map fun f => (f.1, view u keep f.2)

theorem mapAll_files {β : Type} {l l' : Files} (h : views u keep' l' = views u keep l)
    {f f' : BazelPackage × Node → Option (List β)}
    (hf : ∀ pkg t t', view u keep' t' = view u keep t → f' (pkg, t') = f (pkg, t)) : mapAll f' l' = mapAll f l := by
  refine mapAll_pair (g := fun f : BazelPackage × Node => (f.1, view u keep f.2))
    (g' := fun f : BazelPackage × Node => (f.1, view u keep' f.2)) ?_ h
  rintro ⟨p, t⟩ ⟨p', t'⟩ e
  simp only [Prod.mk.injEq] at e
  obtain ⟨rfl, e⟩ := e
  exact hf p' t t' e

theorem aliases_same {l l' : Files} (h : views u keep' l' = views u keep l) : extractAliasedBy l' = extractAliasedBy l := by
  refine mapAll_files h fun pkg t t' ht => forTargets_same ht _ fun r r' hr _ => ?_
  simp only [actualOf]
  rw [hr.name, hr.actual, hr.hasActual]

theorem pathsOf_same {r r' : Query.Result} (h : Same r r') (pkg : BazelPackage) (header : Str) :
    pathsOf pkg r' header = pathsOf pkg r header := by
  simp only [pathsOf, h.includePrefix, h.includes, h.stripIncludePrefix]

theorem cc_same {t t' : Node} (h : view u keep' t' = view u keep t) (aliases : List (BazelTarget × BazelTarget))
    (pkg : BazelPackage) : appendCCLibraryHeaders aliases pkg t' = appendCCLibraryHeaders aliases pkg t := by
  have : iterateCCLibraryHeaders pkg t' = iterateCCLibraryHeaders pkg t := by
    refine forTargets_same h _ fun r r' hr _ => ?_
    simp only [hr.name, hr.hdrs, hr.textualHdrs, hr.publicHdrs, pathsOf_same hr]
  simp only [appendCCLibraryHeaders, this]

theorem proto_same {t t' : Node} (h : view u keep' t' = view u keep t) (pkg : BazelPackage) :
    appendProtoLibraryHeaders pkg t' = appendProtoLibraryHeaders pkg t := by
  have hu : ∀ g, protoUsers pkg t' g = protoUsers pkg t g := fun g =>
    forTargets_same h _ fun r r' hr _ => by simp only [hr.name, hr.rule, hr.srcs, hr.deps]
  simp only [appendProtoLibraryHeaders, hu]
  split
  · exact forTargets_same h _ fun r r' hr _ => by simp only [hr.name, hr.srcs]
  · rfl

/-- Nothing is found where there is nothing. -/
theorem isNull_forTargets {β : Type} {t : Node} (h : t.isNull = true) (rules : List Str)
    (f : Query.Result → Option (List β)) : forTargets t rules f = some [] := by
  cases t <;> simp [Node.isNull] at h
  rfl

theorem cc_null {t : Node} (h : t.isNull = true) (aliases : List (BazelTarget × BazelTarget)) (pkg : BazelPackage) :
    appendCCLibraryHeaders aliases pkg t = some [] := by
  simp only [appendCCLibraryHeaders, iterateCCLibraryHeaders, isNull_forTargets h]
  rfl

theorem proto_null {t : Node} (h : t.isNull = true) (pkg : BazelPackage) :
    appendProtoLibraryHeaders pkg t = some [] := by
  simp only [appendProtoLibraryHeaders, protoUsers, isNull_forTargets h]

theorem headerAdds_same {l l' : Files} (h : views u keep' l' = views u keep l) : headerAdds l' = headerAdds l := by
  simp only [headerAdds, aliases_same h]
  cases extractAliasedBy l with
  | none => rfl
  | some aliases =>
    have key : ∀ (pkg : BazelPackage) (t : Node), (if t.isNull then some [] else
          match appendCCLibraryHeaders aliases pkg t with
          | none => none
          | some cc => (appendProtoLibraryHeaders pkg t).map (cc ++ ·)) =
        match appendCCLibraryHeaders aliases pkg t with
          | none => none
          | some cc => (appendProtoLibraryHeaders pkg t).map (cc ++ ·) := by
      intro pkg t
      split
      · next hn => rw [cc_null hn, proto_null hn]; rfl
      · rfl
    refine mapAll_files h fun pkg t t' ht => ?_
    refine (key pkg t').trans (Eq.trans ?_ (key pkg t).symm)
    rw [cc_same ht, proto_same ht]

theorem genruleAdds_same {l l' : Files} (h : views u keep' l' = views u keep l) : genruleAdds l' = genruleAdds l := by
  refine mapAll_files h fun pkg t t' ht => ?_
  have key : ∀ (t : Node) (f : Query.Result → Option (List (Str × BazelTarget))),
      (if t.isNull then some [] else forTargets t [c!"genrule"] f) = forTargets t [c!"genrule"] f := by
    intro t f
    split
    · next hn => rw [isNull_forTargets hn]
    · rfl
  refine (key t' _).trans (Eq.trans ?_ (key t _).symm)
  exact forTargets_same ht _ fun r r' hr _ => by simp only [hr.name, hr.outs]

theorem canonEdits_same {l l' : Files} (h : views u keep' l' = views u keep l) (pattern : BazelPattern) :
    canonEdits pattern l' = canonEdits pattern l := by
  refine mapAll_files h fun pkg t t' ht => ?_
  simp only
  split
  · rfl
  · exact forTargets_same ht _ fun r r' hr _ => by simp only [hr.name, hr.deps]

theorem targetRows_same (loc : Nat → Str) (pattern : BazelPattern) (pkg : BazelPackage) :
    ∀ {rs rs' : List Query.Result} (k : Nat),
      rs'.map (fun r => (told r, keep' r)) = rs.map (fun r => (told r, keep r)) →
      targetRows loc pattern pkg k rs' = targetRows loc pattern pkg k rs
  | [], [], _, _ => rfl
  | [], _ :: _, _, h => by simp at h
  | _ :: _, [], _, h => by simp at h
  | r :: rs, r' :: rs', k, h => by
    simp only [List.map_cons, List.cons.injEq, Prod.mk.injEq] at h
    have hr := same_of h.1.1
    rw [targetRows, targetRows, targetRows_same loc pattern pkg (k + 1) h.2, hr.name, hr.rule]

theorem allTargetRows_same (loc : BazelPackage → Nat → Str) (pattern : BazelPattern) :
    ∀ {l l' : Files}, views u keep' l' = views u keep l → allTargetRows loc pattern l' = allTargetRows loc pattern l
  | [], [], _ => rfl
  | [], _ :: _, h => by simp [views] at h
  | _ :: _, [], h => by simp [views] at h
  | (p, t) :: l, (p', t') :: l', h => by
    simp only [views, List.map_cons, List.cons.injEq, Prod.mk.injEq] at h
    obtain ⟨⟨rfl, h1⟩, h2⟩ := h
    rw [allTargetRows, allTargetRows, allTargetRows_same loc pattern h2]
    rcases found_same h1 false [] with ⟨e1, e2⟩ | ⟨rs, rs', e1, e2, e3⟩
    · simp only [e1, e2]
    · simp only [e1, e2]
      cases allTargetRows loc pattern l with
      | none => rfl
      | some rest => simp only [targetRows_same (loc p') pattern p' 0 e3]

/-! ### workspace -/

theorem refs_same {r r' : Query.Result} (h : Same r r') (pattern : BazelPattern) (pkg : BazelPackage) :
    WorkspaceCmd.refs pattern pkg r' = WorkspaceCmd.refs pattern pkg r := by
  unfold WorkspaceCmd.refs
  rw [h.rule, h.name, h.deps, h.actual]
  split
  · next hl =>
    have hn := h.node
    simp only [told, h.rule, hl, if_true] at hn
    have key : ∀ n : Node, (match n with
        | .call _ (.list _ args) => strings args
        | _ => none) = (match (match n with
          | .call _ (.list _ args) => (Node.call .null (.list .list (texts args)))
          | _ => .null) with
        | .call _ (.list _ args) => strings args
        | _ => none) := by
      intro n
      cases n with
      | call f a => cases a <;> first | rfl | exact (strings_texts _).symm
      | _ => rfl
    exact (key r'.node).trans ((congrArg (fun n : Node => match n with
        | .call _ (.list _ args) => strings args
        | _ => none) hn).trans (key r.node).symm)
  · rfl

theorem filtered_same {l l' : Files} (hu : u = true) (h : views u keep' l' = views u keep l) (global : Workspace.Map)
    (pattern : BazelPattern) : WorkspaceCmd.filtered global pattern l' = WorkspaceCmd.filtered global pattern l := by
  refine foldlM_pair (g := fun f : BazelPackage × Node => (f.1, view u keep f.2))
    (g' := fun f : BazelPackage × Node => (f.1, view u keep' f.2)) ?_ _ h
  rintro m ⟨p, t⟩ ⟨p', t'⟩ e
  simp only [Prod.mk.injEq] at e
  obtain ⟨rfl, e⟩ := e
  simp only [WorkspaceCmd.addFile]
  have : WorkspaceCmd.addFile.forTargetsAny t' (WorkspaceCmd.refs pattern p') =
      WorkspaceCmd.addFile.forTargetsAny t (WorkspaceCmd.refs pattern p') := by
    unfold WorkspaceCmd.addFile.forTargetsAny
    rcases found_same e true [] (fun _ => hu) with ⟨e1, e2⟩ | ⟨rs, rs', e1, e2, e3⟩
    · rw [e1, e2]
    · rw [e1, e2]
      refine mapAll_pair (g := fun r => (told r, keep r)) (g' := fun r => (told r, keep' r)) ?_ e3
      intro r r' e
      simp only [Prod.mk.injEq] at e
      exact refs_same (same_of e.1) _ _
  rw [this]

/-! ### compilation-db -/

theorem incDirs_same {l l' : Files} (h : views u keep' l' = views u keep l) (ws : Workspace.Map) :
    CompDb.incDirs ws l' = CompDb.incDirs ws l := by
  unfold CompDb.incDirs
  congr 1
  refine foldlM_pair (g := fun f : BazelPackage × Node => (f.1, view u keep f.2))
    (g' := fun f : BazelPackage × Node => (f.1, view u keep' f.2)) ?_ _ h
  rintro o ⟨p, t⟩ ⟨p', t'⟩ e
  simp only [Prod.mk.injEq] at e
  obtain ⟨rfl, e⟩ := e
  unfold CompDb.addFile
  simp only
  rcases found_same e false [c!"cc_library", c!"cc_binary", c!"cc_test", c!"proto_library"] with
    ⟨e1, e2⟩ | ⟨rs, rs', e1, e2, e3⟩
  · rw [e1, e2]
  · rw [e1, e2]
    change List.foldlM _ _ _ = List.foldlM _ _ _
    refine foldlM_pair (g := fun r => (told r, keep r)) (g' := fun r => (told r, keep' r)) ?_ _ e3
    intro o r r' e
    simp only [Prod.mk.injEq] at e
    have hr := same_of e.1
    simp only [CompDb.addRule, hr.name, hr.includes, hr.includePrefix, hr.rule, hr.deps]

theorem fileSources_same {l l' : Files} (h : views u keep' l' = views u keep l) (ws : Workspace.Map)
    (pattern : BazelPattern) :
    mapAll (CompDb.fileSources ws pattern) l' = mapAll (CompDb.fileSources ws pattern) l := by
  refine mapAll_files h fun pkg t t' ht => ?_
  simp only [CompDb.fileSources]
  split
  · rfl
  · exact forTargets_same ht _ fun r r' hr _ => by simp only [CompDb.sources, hr.name, hr.srcs, hr.hdrs]

/-! ### dwyu -/

theorem visibleFrom_texts (target : BazelTarget) (package : BazelPackage) (xs : List Node) :
    ∀ b, Dwyu.visibleFrom target package b (texts xs) = Dwyu.visibleFrom target package b xs := by
  induction xs with
  | nil => intro b; rfl
  | cons x xs ih =>
    intro b
    simp only [texts] at ih
    cases x <;> simp only [texts, List.filterMap_cons] <;> simp only [Dwyu.visibleFrom, ih]

/-- The same is known. -/
structure SameGen (gen gen' : Dwyu.Generator) : Prop where
  headers : gen'.headers = gen.headers
  known : gen'.known.map (fun e => (e.1, told e.2)) = gen.known.map fun e => (e.1, told e.2)

theorem insertAll_same : ∀ {l l' : List (BazelTarget × Query.Result)} {m m' : List (BazelTarget × Query.Result)},
    m'.map (fun e => (e.1, told e.2)) = m.map (fun e => (e.1, told e.2)) →
    l'.map (fun e => (e.1, told e.2)) = l.map (fun e => (e.1, told e.2)) →
    (insertAll m' l').map (fun e => (e.1, told e.2)) = (insertAll m l).map (fun e => (e.1, told e.2))
  | [], [], _, _, hm, _ => hm
  | [], _ :: _, _, _, _, h => by simp at h
  | _ :: _, [], _, _, _, h => by simp at h
  | x :: l, x' :: l', m, m', hm, h => by
    simp only [List.map_cons, List.cons.injEq, Prod.mk.injEq] at h
    rw [insertAll, insertAll]
    refine insertAll_same ?_ h.2
    have hany : m'.any (fun y => y.1 = x'.1) = m.any (fun y => y.1 = x.1) := by
      have e : ∀ (n : List (BazelTarget × Query.Result)) (k : BazelTarget),
          n.any (fun y => y.1 = k) = (n.map (fun e => (e.1, told e.2))).any fun y => y.1 = k := by
        intro n k; rw [List.any_map]; rfl
      rw [e m', e m, hm, h.1.1]
    rw [hany]
    split
    · exact hm
    · simp only [List.map_append, List.map_cons, List.map_nil, hm, h.1.1, h.1.2]

theorem lookup_told {m m' : List (BazelTarget × Query.Result)}
    (h : m'.map (fun e => (e.1, told e.2)) = m.map fun e => (e.1, told e.2)) (k : BazelTarget) :
    (lookup m k = none ∧ lookup m' k = none) ∨ ∃ r r', lookup m k = some r ∧ lookup m' k = some r' ∧ Same r r' := by
  induction m generalizing m' with
  | nil =>
    cases m' with
    | nil => exact .inl ⟨rfl, rfl⟩
    | cons _ _ => simp at h
  | cons x m ih =>
    cases m' with
    | nil => simp at h
    | cons x' m' =>
      simp only [List.map_cons, List.cons.injEq, Prod.mk.injEq] at h
      unfold lookup
      simp only [List.find?_cons, h.1.1]
      by_cases hk : x.1 = k
      · simp only [hk, decide_true, Option.map_some]
        exact .inr ⟨x.2, x'.2, rfl, rfl, same_of h.1.2⟩
      · simp only [hk, decide_false]
        exact ih h.2

theorem gen_same {l l' : Files} (h : views u keep' l' = views u keep l) :
    (Dwyu.Generator.create l = none ∧ Dwyu.Generator.create l' = none) ∨
      ∃ gen gen', Dwyu.Generator.create l = some gen ∧ Dwyu.Generator.create l' = some gen' ∧ SameGen gen gen' := by
  have hk : (Dwyu.knownAdds l = none ∧ Dwyu.knownAdds l' = none) ∨
      ∃ k k', Dwyu.knownAdds l = some k ∧ Dwyu.knownAdds l' = some k' ∧
        k'.map (fun e => (e.1, told e.2)) = k.map fun e => (e.1, told e.2) := by
    have e : ∀ n : Files, (Dwyu.knownAdds n).map (·.map fun e => (e.1, told e.2)) =
        mapAll (fun f => forTargets f.2
          [c!"cc_library", c!"alias", c!"cc_proto_library", c!"grpc_cc_library", c!"cc_test"] fun r =>
            match f.1.qualifiedTarget r.name with
            | none => some []
            | some self => some [(self, told r)]) n := by
      have map_mapAll : ∀ {α β γ : Type} (g : β → γ) (f : α → Option (List β)) (xs : List α),
          (mapAll f xs).map (·.map g) = mapAll (fun x => (f x).map (·.map g)) xs := by
        intro α β γ g f xs
        induction xs with
        | nil => rfl
        | cons x xs ih =>
          rw [mapAll, mapAll, ← ih]
          cases f x with
          | none => rfl
          | some ys =>
            cases mapAll f xs with
            | none => rfl
            | some zs => simp
      intro n
      unfold Dwyu.knownAdds
      rw [map_mapAll]
      congr 1
      funext f
      unfold forTargets
      cases findTargets false f.2 [c!"cc_library", c!"alias", c!"cc_proto_library", c!"grpc_cc_library", c!"cc_test"] with
      | none => rfl
      | some rs =>
        simp only [map_mapAll]
        congr 1
        funext r
        cases f.1.qualifiedTarget r.name <;> rfl
    have e2 := e l
    have e3 := e l'
    have e4 : (Dwyu.knownAdds l').map (·.map fun e => (e.1, told e.2)) =
        (Dwyu.knownAdds l).map (·.map fun e => (e.1, told e.2)) := by
      rw [e2, e3]
      refine mapAll_files h fun pkg t t' ht => ?_
      simp only
      unfold forTargets
      rcases found_same ht false
        [c!"cc_library", c!"alias", c!"cc_proto_library", c!"grpc_cc_library", c!"cc_test"] with
        ⟨e1, e2⟩ | ⟨rs, rs', e1, e2, e3⟩
      · rw [e1, e2]
      · rw [e1, e2]
        refine mapAll_pair (g := fun r => (told r, keep r)) (g' := fun r => (told r, keep' r)) ?_ e3
        intro r r' e
        simp only [Prod.mk.injEq] at e
        rw [(same_of e.1).name, e.1]
    cases h1 : Dwyu.knownAdds l with
    | none =>
      cases h2 : Dwyu.knownAdds l' with
      | none => exact .inl ⟨rfl, rfl⟩
      | some k => rw [h1, h2] at e4; cases e4
    | some k =>
      cases h2 : Dwyu.knownAdds l' with
      | none => rw [h1, h2] at e4; cases e4
      | some k' =>
        rw [h1, h2] at e4
        exact .inr ⟨k, k', rfl, rfl, by simpa using e4⟩
  unfold Dwyu.Generator.create extractHeaderToLibMapping extractGeneratedFromGenrule
  rw [headerAdds_same h, genruleAdds_same h]
  cases headerAdds l with
  | none => exact .inl ⟨rfl, rfl⟩
  | some hs =>
    cases genruleAdds l with
    | none => exact .inl ⟨rfl, rfl⟩
    | some gs =>
      rcases hk with ⟨h1, h2⟩ | ⟨k, k', h1, h2, h3⟩
      · rw [h1, h2]; exact .inl ⟨rfl, rfl⟩
      · rw [h1, h2]
        exact .inr ⟨_, _, rfl, rfl, rfl, insertAll_same rfl h3⟩

variable {gen gen' : Dwyu.Generator}

theorem canSee_same (h : SameGen gen gen') (target dep : BazelTarget) :
    Dwyu.canSee gen' target dep = Dwyu.canSee gen target dep := by
  unfold Dwyu.canSee
  rcases lookup_told h.known dep with ⟨h1, h2⟩ | ⟨r, r', h1, h2, hr⟩
  · rw [h1, h2]
  · rw [h1, h2]
    simp only [hr.deprecation]
    have : (match r'.visibility with
        | none => some true
        | some l => Dwyu.visibleFrom target dep.package false l.2) = match r.visibility with
        | none => some true
        | some l => Dwyu.visibleFrom target dep.package false l.2 := by
      have hv := hr.visibility
      cases h3 : r.visibility with
      | none =>
        cases h4 : r'.visibility with
        | none => rfl
        | some l => rw [h3, h4] at hv; cases hv
      | some l =>
        cases h4 : r'.visibility with
        | none => rw [h3, h4] at hv; cases hv
        | some l' =>
          rw [h3, h4] at hv
          simp only [textsOf, Option.map_some, Option.some.injEq, Prod.mk.injEq, true_and] at hv
          simp only
          rw [← visibleFrom_texts _ _ l'.2, hv, visibleFrom_texts]
    split
    · rfl
    · split
      · rfl
      · split
        · rfl
        · exact this

theorem alwayslink_same (h : SameGen gen gen') (target : BazelTarget) :
    Dwyu.isAlwayslink gen' target = Dwyu.isAlwayslink gen target := by
  unfold Dwyu.isAlwayslink
  rcases lookup_told h.known target with ⟨h1, h2⟩ | ⟨r, r', h1, h2, hr⟩
  · rw [h1, h2]
  · rw [h1, h2]; exact hr.alwayslink

theorem testonly_same (h : SameGen gen gen') (target dep : BazelTarget) :
    Dwyu.isTestonlyCompatible gen' target dep = Dwyu.isTestonlyCompatible gen target dep := by
  unfold Dwyu.isTestonlyCompatible
  rcases lookup_told h.known dep with ⟨h1, h2⟩ | ⟨r, r', h1, h2, hr⟩
  · rw [h1, h2]
  · rw [h1, h2]
    rcases lookup_told h.known target with ⟨h3, h4⟩ | ⟨s, s', h3, h4, hs⟩
    · simp only [h3, h4, hr.testonly]
    · simp only [h3, h4, hr.testonly, hs.testonly, hs.rule]

theorem needed_same (h : SameGen gen gen') (target : BazelTarget) (package : BazelPackage) (sources : List Str)
    (l : List Str) :
    Dwyu.neededByIncludes gen' target package sources l = Dwyu.neededByIncludes gen target package sources l := by
  have hv : ∀ ts, Dwyu.visibleOf gen' target ts = Dwyu.visibleOf gen target ts := by
    intro ts
    induction ts with
    | nil => rfl
    | cons t ts ih => simp only [Dwyu.visibleOf, canSee_same h, ih]
  have hp : ∀ inc, Dwyu.providers gen' package inc = Dwyu.providers gen package inc := by
    intro inc; simp only [Dwyu.providers, h.headers]
  induction l with
  | nil => rfl
  | cons inc l ih => simp only [Dwyu.neededByIncludes, ih, hv, hp]

theorem neededBySources_same {env env' : Dwyu.Env} (h : SameGen gen gen')
    (hmiss : ∀ n, env'.read n = none ↔ env.read n = none)
    (hinc : ∀ n c c', env.read n = some c → env'.read n = some c' →
      (Includes.extract c').map (·.2) = (Includes.extract c).map (·.2))
    (hws : env'.workspace = env.workspace) (target : BazelTarget) (package : BazelPackage) (sources l : List Str) :
    Dwyu.neededBySources env' gen' target package sources l =
      Dwyu.neededBySources env gen target package sources l := by
  induction l with
  | nil => rfl
  | cons src rest ih =>
    rw [Dwyu.neededBySources, Dwyu.neededBySources, ih, hws]
    have ht := Layout.tryOpen_same hmiss hinc (package.fullyQualifiedFile env.workspace src)
    cases hr : Dwyu.neededBySources env gen target package sources rest with
    | none => rfl
    | some r =>
      cases h1 : Dwyu.tryOpenFile env.read (package.fullyQualifiedFile env.workspace src) with
      | none =>
        cases h2 : Dwyu.tryOpenFile env'.read (package.fullyQualifiedFile env.workspace src) with
        | none => rfl
        | some c' => rw [h1, h2] at ht; cases ht
      | some c =>
        cases h2 : Dwyu.tryOpenFile env'.read (package.fullyQualifiedFile env.workspace src) with
        | none => rw [h1, h2] at ht; cases ht
        | some c' =>
          rw [h1, h2] at ht
          simp only [Option.map_some, Option.some.injEq] at ht
          simp only [ht, needed_same h]

theorem lookAtDeps_same {env env' : Dwyu.Env} (h : SameGen gen gen') {r r' : Query.Result}
    (target : BazelTarget) (hkeep : ∀ n, (env'.ignoreKeep || !Dwyu.hasKeepComment (env'.line r' target n)) =
      (env.ignoreKeep || !Dwyu.hasKeepComment (env.line r target n)))
    (accounted : Bool) (l : List Str) :
    ∀ n needed off, Dwyu.lookAtDeps env' gen' target r' accounted n needed off l =
      Dwyu.lookAtDeps env gen target r accounted n needed off l := by
  induction l with
  | nil => intro n needed off; rfl
  | cons d rest ih =>
    intro n needed off
    rw [Dwyu.lookAtDeps, Dwyu.lookAtDeps]
    simp only [ih, hkeep, alwayslink_same h]

theorem addNeeded_same (h : SameGen gen gen') (target : BazelTarget) (l : List (List BazelTarget)) :
    Dwyu.addNeeded gen' target l = Dwyu.addNeeded gen target l := by
  induction l with
  | nil => rfl
  | cons a l ih => simp only [Dwyu.addNeeded, ih, canSee_same h, testonly_same h]

theorem dwyu_same {env env' : Dwyu.Env} {l l' : Files} (h : views u keep' l' = views u keep l)
    (hmiss : ∀ n, env'.read n = none ↔ env.read n = none)
    (hinc : ∀ n c c', env.read n = some c → env'.read n = some c' →
      (Includes.extract c').map (·.2) = (Includes.extract c).map (·.2))
    (hws : env'.workspace = env.workspace)
    (hk : ∀ r t n, keep r t n = (!env.ignoreKeep && Dwyu.hasKeepComment (env.line r t n)))
    (hk' : ∀ r t n, keep' r t n = (!env'.ignoreKeep && Dwyu.hasKeepComment (env'.line r t n))) (pattern : BazelPattern) :
    Dwyu.createDependencyEdits env' pattern l' = Dwyu.createDependencyEdits env pattern l := by
  unfold Dwyu.createDependencyEdits
  rcases gen_same h with ⟨h1, h2⟩ | ⟨gen, gen', h1, h2, hg⟩
  · rw [h1, h2]; rfl
  · rw [h1, h2, Option.bind_some, Option.bind_some]
    refine mapAll_files h fun pkg t t' ht => ?_
    simp only
    split
    · rfl
    · refine forTargets_same ht _ fun r r' hr hkr => ?_
      rw [hr.name]
      split
      · rfl
      · split
        · rfl
        · simp only [Dwyu.createEditsForTarget, hr.srcs, hr.hdrs, hr.deps,
            neededBySources_same hg hmiss hinc hws, addNeeded_same hg]
          have hkeep : ∀ t n, (env'.ignoreKeep || !Dwyu.hasKeepComment (env'.line r' t n)) =
              (env.ignoreKeep || !Dwyu.hasKeepComment (env.line r t n)) := by
            intro t n
            have e := congrFun (congrFun hkr t) n
            rw [hk, hk'] at e
            rw [← Bool.not_inj_iff]
            simpa using e
          simp only [lookAtDeps_same hg _ (hkeep _)]

end RulesSpec
end Bant
