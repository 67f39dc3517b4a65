import Verif.Spec.Rules
import Verif.Lemmas.Elab

/-! Helper lemmas: finding rules. -/
namespace Bant
namespace Query
open Rules

variable {rules : List Str} {ae : Bool}

/-- Effect of keyword arguments while a rule of interest is looked at. -/
def takeKeywords (f : Finder) (kws : List (Node × Node)) : Finder :=
  { f with current := kws.foldl (fun r kw => extractQueryInfo r kw.1 kw.2) f.current }

/-- Effect of keyword arguments of `package()`. -/
def takePackage (f : Finder) (kws : List (Node × Node)) : Finder :=
  { f with defaultVisibility :=
      kws.foldl (fun v kw => extractPackageInfo v kw.1 kw.2) f.defaultVisibility }

theorem takeKeywords_append (f : Finder) (a b : List (Node × Node)) :
    takeKeywords f (a ++ b) = takeKeywords (takeKeywords f a) b := by
  simp [takeKeywords, List.foldl_append]

theorem takePackage_append (f : Finder) (a b : List (Node × Node)) :
    takePackage f (a ++ b) = takePackage (takePackage f a) b := by
  simp [takePackage, List.foldl_append]

theorem visit_call (f : Finder) (fn a : Node) (h : f.relevancy ≠ .notRelevant) :
    visit rules ae f (.call fn a) = visit rules ae f a := by
  cases fn <;> cases a <;> (conv => lhs; unfold visit) <;> exact if_neg h

theorem visit_inside (n : Node) : ∀ f : Finder,
    (f.relevancy = .userQuery → visit rules ae f n = some (takeKeywords f (kwArgs n))) ∧
    (f.relevancy = .packageInfo → visit rules ae f n = some (takePackage f (kwArgs n))) := by
  induction n using Node.induct with
  | null => intro f; exact ⟨fun _ => rfl, fun _ => rfl⟩
  | str => intro f; exact ⟨fun _ => rfl, fun _ => rfl⟩
  | int => intro f; exact ⟨fun _ => rfl, fun _ => rfl⟩
  | ident => intro f; exact ⟨fun _ => rfl, fun _ => rfl⟩
  | unary op e ih => intro f; simpa [visit, kwArgs] using ih f
  | binop op l r ih1 ih2 =>
    intro f
    constructor
    · intro h
      simp only [visit, (ih1 f).1 h, kwArgs, takeKeywords_append]
      exact (ih2 _).1 h
    · intro h
      simp only [visit, (ih1 f).2 h, kwArgs, takePackage_append]
      exact (ih2 _).2 h
  | list ty xs ih =>
    intro f
    have key : ∀ ys : List Node, (∀ y ∈ ys, y ∈ xs) → ∀ f : Finder,
        (f.relevancy = .userQuery → visits rules ae f ys = some (takeKeywords f (kwArgsIn ys))) ∧
        (f.relevancy = .packageInfo → visits rules ae f ys = some (takePackage f (kwArgsIn ys))) := by
      intro ys
      induction ys with
      | nil => intro _ f; exact ⟨fun _ => rfl, fun _ => rfl⟩
      | cons y ys ih2 =>
        intro hs f
        constructor
        · intro h
          simp only [visits, (ih y (hs y (by simp)) f).1 h, kwArgsIn, takeKeywords_append]
          exact (ih2 (fun z hz => hs z (by simp [hz])) _).1 h
        · intro h
          simp only [visits, (ih y (hs y (by simp)) f).2 h, kwArgsIn, takePackage_append]
          exact (ih2 (fun z hz => hs z (by simp [hz])) _).2 h
    simpa [visit, kwArgs] using key xs (fun _ h => h) f
  | compr ty e ih => intro f; simpa [visit, kwArgs] using ih f
  | ternary a b c ih1 ih2 ih3 =>
    intro f
    constructor
    · intro h
      simp only [visit, (ih1 f).1 h, kwArgs, takeKeywords_append]
      rw [(ih2 (takeKeywords f (kwArgs a))).1 h]
      exact (ih3 _).1 h
    · intro h
      simp only [visit, (ih1 f).2 h, kwArgs, takePackage_append]
      rw [(ih2 (takePackage f (kwArgs a))).2 h]
      exact (ih3 _).2 h
  | assign l r ih1 ih2 =>
    intro f
    constructor
    · intro h
      obtain ⟨v, c, rel, fd⟩ := f
      subst h
      rfl
    · intro h
      obtain ⟨v, c, rel, fd⟩ := f
      subst h
      rfl
  | call fn a ih1 ih2 =>
    intro f
    refine ⟨fun h => ?_, fun h => ?_⟩
    · rw [visit_call _ _ _ (by rw [h]; simp)]
      exact (ih2 f).1 h
    · rw [visit_call _ _ _ (by rw [h]; simp)]
      exact (ih2 f).2 h

theorem visits_inside (xs : List Node) (f : Finder) :
    (f.relevancy = .userQuery → visits rules ae f xs = some (takeKeywords f (kwArgsIn xs))) ∧
    (f.relevancy = .packageInfo → visits rules ae f xs = some (takePackage f (kwArgsIn xs))) := by
  have := visit_inside (rules := rules) (ae := ae) (.list .list xs) f
  simpa [visit, kwArgs] using this

/-! ### Attributes: the last one counts -/

theorem last_cons {α : Type} (key : Str) (g : Node → Option α) (kw : Node × Node) (kws : List (Node × Node)) :
    last key g (kw :: kws) = (last key g kws).or (last key g [kw]) := by
  simp only [last, List.reverse_cons, List.findSome?_append, List.reverse_nil, List.nil_append]

theorem last_one {α : Type} (key : Str) (g : Node → Option α) (l v : Node) :
    last key g [(l, v)] = match l with
      | .ident k => if k = key then g v else none
      | _ => none := by
  simp only [last, List.reverse_cons, List.reverse_nil, List.nil_append, List.findSome?_cons,
    List.findSome?_nil]
  cases l <;> try rfl
  simp only []
  split <;> (try split) <;> simp_all

theorem fold_field {α : Type} (π : Result → α) (key : Str) (g : Node → Option α)
    (h : ∀ r l v, π (extractQueryInfo r (.ident l) v) = if l = key then (g v).getD (π r) else π r)
    (r : Result) (kws : List (Node × Node)) :
    π (kws.foldl (fun r kw => extractQueryInfo r kw.1 kw.2) r) = (last key g kws).getD (π r) := by
  induction kws generalizing r with
  | nil => rfl
  | cons kw kws ih =>
    obtain ⟨l, v⟩ := kw
    rw [List.foldl_cons, ih, last_cons, last_one]
    have : π (extractQueryInfo r l v) = (last key g [(l, v)]).getD (π r) := by
      rw [last_one]
      cases l <;> try rfl
      rename_i i
      simp only []
      rw [h]
      split <;> rfl
    rw [last_one] at this
    simp only [this]
    cases last key g kws <;> simp

theorem ite_field {α : Type} (π : Result → α) {c : Prop} [Decidable c] {a b : Result} {x : α}
    (ha : c → π a = x) (hb : ¬c → π b = x) : π (if c then a else b) = x := by
  by_cases h : c
  · rw [if_pos h]; exact ha h
  · rw [if_neg h]; exact hb h

theorem ite_elim {α : Type} {c : Prop} [Decidable c] {x a b : α} (ha : c → x = a) (hb : ¬c → x = b) :
    x = if c then a else b := by
  by_cases h : c
  · rw [if_pos h]; exact ha h
  · rw [if_neg h]; exact hb h

/-- A field that is set by the keyword of the same name only. -/
macro "field" p:term : tactic =>
  `(tactic| (
    intro r l v
    refine ite_elim (fun h => ?_) (fun h => ?_)
    · subst h; cases v <;> rfl
    · cases v <;> try rfl
      all_goals
        first
        | show (($p) (setScalar _ _ _ _)) = _; unfold setScalar
        | show (($p) (setList _ _ _)) = _; unfold setList
        | show (($p) (setIdent _ _ _)) = _; unfold setIdent
      all_goals
        repeat' (refine ite_field $p (fun h2 => ?_) (fun _ => ?_))
      all_goals first | exact absurd ‹_› h | rfl))

theorem extract_rule (r : Result) (l v : Node) :
    (extractQueryInfo r l v).rule = r.rule ∧ (extractQueryInfo r l v).node = r.node := by
  cases l <;> try exact ⟨rfl, rfl⟩
  cases v <;> try exact ⟨rfl, rfl⟩
  all_goals
    first
    | show (setScalar _ _ _ _).rule = _ ∧ (setScalar _ _ _ _).node = _; unfold setScalar
    | show (setList _ _ _).rule = _ ∧ (setList _ _ _).node = _; unfold setList
    | show (setIdent _ _ _).rule = _ ∧ (setIdent _ _ _).node = _; unfold setIdent
  all_goals
    constructor
    · repeat' (refine ite_field Result.rule (fun _ => ?_) (fun _ => ?_))
      all_goals rfl
    · repeat' (refine ite_field Result.node (fun _ => ?_) (fun _ => ?_))
      all_goals rfl

theorem fold_rule (r : Result) (kws : List (Node × Node)) :
    (kws.foldl (fun r kw => extractQueryInfo r kw.1 kw.2) r).rule = r.rule ∧
    (kws.foldl (fun r kw => extractQueryInfo r kw.1 kw.2) r).node = r.node := by
  induction kws generalizing r with
  | nil => exact ⟨rfl, rfl⟩
  | cons kw kws ih =>
    rw [List.foldl_cons, (ih _).1, (ih _).2]
    exact extract_rule r kw.1 kw.2

/-- The same with an option as field. -/
theorem fold_opt {α : Type} (π : Result → Option α) (key : Str) (g : Node → Option α)
    (h : ∀ r l v, π (extractQueryInfo r (.ident l) v) = if l = key then (g v).or (π r) else π r)
    (r : Result) (kws : List (Node × Node)) :
    π (kws.foldl (fun r kw => extractQueryInfo r kw.1 kw.2) r) = (last key g kws).or (π r) := by
  have := fold_field π key (fun n => (g n).map some) (by
    intro r l v
    rw [h]
    split
    · cases g v <;> rfl
    · rfl) r kws
  rw [this]
  have e : last key (fun n => (g n).map some) kws = (last key g kws).map some := by
    induction kws with
    | nil => rfl
    | cons kw kws ih =>
      have ih' := ih (fold_field π key (fun n => (g n).map some) (by
        intro r l v
        rw [h]
        split
        · cases g v <;> rfl
        · rfl) r kws)
      obtain ⟨l, v⟩ := kw
      rw [last_cons key g, last_cons key (fun n => (g n).map some), ih', last_one, last_one]
      cases last key g kws <;> simp
      cases l <;> simp
      split <;> simp_all
  rw [e]
  cases last key g kws <;> simp

/-- The keyword arguments collected so far. -/
def collect (r : Result) (kws : List (Node × Node)) : Result :=
  kws.foldl (fun r kw => extractQueryInfo r kw.1 kw.2) r

theorem fold_name (r : Result) (kws : List (Node × Node)) :
    (collect r kws).name = (last c!"name" text kws).getD r.name :=
  fold_field (·.name) c!"name" text (by field Result.name) r kws

theorem fold_actual (r : Result) (kws : List (Node × Node)) :
    (collect r kws).actual = (last c!"actual" text kws).getD r.actual :=
  fold_field (·.actual) c!"actual" text (by field Result.actual) r kws

theorem fold_hasActual (r : Result) (kws : List (Node × Node)) :
    (collect r kws).hasActual = ((last c!"actual" text kws).isSome || r.hasActual) := by
  have key := fold_field (·.hasActual) c!"actual" (fun n => (text n).map fun _ => true) (by field Result.hasActual) r kws
  rw [show (collect r kws).hasActual = _ from key]
  have e : ∀ kws : List (Node × Node), last c!"actual" (fun n => (text n).map fun _ => true) kws =
      (last c!"actual" text kws).map fun _ => true := by
    intro kws
    induction kws with
    | nil => rfl
    | cons kw kws ih =>
      obtain ⟨l, v⟩ := kw
      rw [last_cons c!"actual" (fun n => (text n).map fun _ => true), last_cons c!"actual" text, ih,
        last_one c!"actual" (fun n => (text n).map fun _ => true), last_one c!"actual" text]
      cases last c!"actual" text kws <;> simp
      cases l <;> simp
      split <;> simp_all
  rw [e]
  cases last c!"actual" text kws <;> rfl

theorem fold_version (r : Result) (kws : List (Node × Node)) :
    (collect r kws).version = (last c!"version" text kws).getD r.version :=
  fold_field (·.version) c!"version" text (by field Result.version) r kws

theorem fold_repoName (r : Result) (kws : List (Node × Node)) :
    (collect r kws).repoName = (last c!"repo_name" text kws).getD r.repoName :=
  fold_field (·.repoName) c!"repo_name" text (by field Result.repoName) r kws

theorem fold_deprecation (r : Result) (kws : List (Node × Node)) :
    (collect r kws).deprecation = (last c!"deprecation" text kws).getD r.deprecation :=
  fold_field (·.deprecation) c!"deprecation" text (by field Result.deprecation) r kws

theorem fold_includePrefix (r : Result) (kws : List (Node × Node)) :
    (collect r kws).includePrefix = (last c!"include_prefix" text kws).getD r.includePrefix :=
  fold_field (·.includePrefix) c!"include_prefix" text (by field Result.includePrefix) r kws

theorem fold_stripIncludePrefix (r : Result) (kws : List (Node × Node)) :
    (collect r kws).stripIncludePrefix = (last c!"strip_include_prefix" text kws).getD r.stripIncludePrefix :=
  fold_field (·.stripIncludePrefix) c!"strip_include_prefix" text (by field Result.stripIncludePrefix) r kws

theorem fold_alwayslink (r : Result) (kws : List (Node × Node)) :
    (collect r kws).alwayslink = (last c!"alwayslink" truth kws).getD r.alwayslink :=
  fold_field (·.alwayslink) c!"alwayslink" truth (by field Result.alwayslink) r kws

theorem fold_testonly (r : Result) (kws : List (Node × Node)) :
    (collect r kws).testonly = (last c!"testonly" truth kws).getD r.testonly :=
  fold_field (·.testonly) c!"testonly" truth (by field Result.testonly) r kws

theorem fold_srcs (r : Result) (kws : List (Node × Node)) :
    (collect r kws).srcs = (last c!"srcs" listOf kws).or r.srcs :=
  fold_opt (·.srcs) c!"srcs" listOf (by field Result.srcs) r kws

theorem fold_hdrs (r : Result) (kws : List (Node × Node)) :
    (collect r kws).hdrs = (last c!"hdrs" listOf kws).or r.hdrs :=
  fold_opt (·.hdrs) c!"hdrs" listOf (by field Result.hdrs) r kws

theorem fold_textualHdrs (r : Result) (kws : List (Node × Node)) :
    (collect r kws).textualHdrs = (last c!"textual_hdrs" listOf kws).or r.textualHdrs :=
  fold_opt (·.textualHdrs) c!"textual_hdrs" listOf (by field Result.textualHdrs) r kws

theorem fold_publicHdrs (r : Result) (kws : List (Node × Node)) :
    (collect r kws).publicHdrs = (last c!"public_hdrs" listOf kws).or r.publicHdrs :=
  fold_opt (·.publicHdrs) c!"public_hdrs" listOf (by field Result.publicHdrs) r kws

theorem fold_deps (r : Result) (kws : List (Node × Node)) :
    (collect r kws).deps = (last c!"deps" listOf kws).or r.deps :=
  fold_opt (·.deps) c!"deps" listOf (by field Result.deps) r kws

theorem fold_outs (r : Result) (kws : List (Node × Node)) :
    (collect r kws).outs = (last c!"outs" listOf kws).or r.outs :=
  fold_opt (·.outs) c!"outs" listOf (by field Result.outs) r kws

theorem fold_visibility (r : Result) (kws : List (Node × Node)) :
    (collect r kws).visibility = (last c!"visibility" listOf kws).or r.visibility :=
  fold_opt (·.visibility) c!"visibility" listOf (by field Result.visibility) r kws

theorem fold_includes (r : Result) (kws : List (Node × Node)) :
    (collect r kws).includes = (last c!"includes" listOf kws).or r.includes :=
  fold_opt (·.includes) c!"includes" listOf (by field Result.includes) r kws


/-- Everything `extractQueryInfo` collects. -/
theorem fold_attributes (vis : Option ListRef) (fn : Str) (args : Node) (kws : List (Node × Node)) :
    (collect { node := .call (.ident fn) args, rule := fn } kws).name = (attributes vis fn args kws).name ∧
    let r := collect { node := .call (.ident fn) args, rule := fn } kws
    let r := if r.rule = c!"cc_library" && noHdrs r then { r with alwayslink := true } else r
    (if r.visibility.isNone then { r with visibility := vis } else r) = attributes vis fn args kws := by
  let r0 : Result := { node := .call (.ident fn) args, rule := fn }
  have h1 : (collect r0 kws).rule = _ := (fold_rule r0 kws).1
  have h2 : (collect r0 kws).node = _ := (fold_rule r0 kws).2
  have g0 := fold_name r0 kws
  have g1 := fold_actual r0 kws
  have g2 := fold_version r0 kws
  have g3 := fold_repoName r0 kws
  have g4 := fold_deprecation r0 kws
  have g5 := fold_includePrefix r0 kws
  have g6 := fold_stripIncludePrefix r0 kws
  have g7 := fold_alwayslink r0 kws
  have g8 := fold_testonly r0 kws
  have g9 := fold_srcs r0 kws
  have g10 := fold_hdrs r0 kws
  have g11 := fold_textualHdrs r0 kws
  have g12 := fold_publicHdrs r0 kws
  have g13 := fold_deps r0 kws
  have g14 := fold_outs r0 kws
  have g15 := fold_visibility r0 kws
  have g16 := fold_includes r0 kws
  have g17 := fold_hasActual r0 kws
  refine ⟨g0, ?_⟩
  show (let r := collect r0 kws
    let r := if r.rule = c!"cc_library" && noHdrs r then { r with alwayslink := true } else r
    (if r.visibility.isNone then { r with visibility := vis } else r)) = attributes vis fn args kws
  generalize collect r0 kws = r at *
  obtain ⟨⟩ := r
  simp only [r0] at *
  simp only [Option.or_none, Bool.or_false] at *
  subst_vars
  unfold attributes noHdrs
  cases hv : last c!"visibility" listOf kws <;> cases hh : last c!"hdrs" listOf kws <;>
    simp only [Bool.and_true] <;> split <;> simp_all

theorem fold_package (v : Option ListRef) (kws : List (Node × Node)) :
    kws.foldl (fun v kw => extractPackageInfo v kw.1 kw.2) v =
      (last c!"default_visibility" listOf kws).or v := by
  induction kws generalizing v with
  | nil => rfl
  | cons kw kws ih =>
    obtain ⟨l, w⟩ := kw
    rw [List.foldl_cons, ih, last_cons, last_one]
    cases last c!"default_visibility" listOf kws
    · simp only [Option.none_or]
      cases l <;> try rfl
      rename_i i
      cases w <;> (try (simp only [extractPackageInfo, listOf]; split <;> rfl)) 
    · rfl

/-! ### Calls outside of other calls -/

/-- One call. -/
def step (rules : List Str) (ae : Bool) (f : Finder) (s : Node × Node) : Option Finder :=
  visit rules ae f (.call s.1 s.2)

/-- Several calls. -/
def steps (rules : List Str) (ae : Bool) : Finder → List (Node × Node) → Option Finder
  | f, [] => some f
  | f, s :: ss =>
    match step rules ae f s with
    | none => none
    | some f => steps rules ae f ss

theorem steps_append (f : Finder) (a b : List (Node × Node)) :
    steps rules ae f (a ++ b) = match steps rules ae f a with
      | none => none
      | some f => steps rules ae f b := by
  induction a generalizing f with
  | nil => rfl
  | cons s ss ih =>
    simp only [List.cons_append, steps]
    cases step rules ae f s with
    | none => rfl
    | some f => exact ih f

theorem informCaller_spec (g : Finder) (v : Option ListRef) (fd : List Result) (fn : Str) (args : Node) (kws : List (Node × Node))
    (h : g.current = collect { node := .call (.ident fn) args, rule := fn } kws)
    (hv : g.defaultVisibility = v) (hfd : g.found = fd) :
    (informCaller ae g).defaultVisibility = v ∧
    (informCaller ae g).found = fd ++
      (if ae = true ∨ (attributes v fn args kws).name ≠ [] then
        [attributes v fn args kws] else []) := by
  subst hv hfd
  obtain ⟨hname, hattr⟩ := fold_attributes g.defaultVisibility fn args kws
  rw [← h] at hname hattr
  unfold informCaller
  rw [← hname]
  by_cases hn : ae = true ∨ g.current.name ≠ []
  · rw [if_neg (by
      rcases hn with hn | hn
      · simp [hn]
      · cases h : g.current.name
        · exact absurd h hn
        · simp), if_pos hn]
    refine ⟨rfl, ?_⟩
    rw [← hattr]
  · have h1 : ae = false := by cases ae <;> simp_all
    have h2 : g.current.name = [] := by
      cases h : g.current.name
      · rfl
      · exact absurd (Or.inr (by rw [h]; simp)) hn
    rw [if_pos (by simp [h1, h2]), if_neg hn]
    simp

/-- What a proper call does. -/
theorem step_proper (f : Finder) (hf : f.relevancy = .notRelevant) (fn : Str) (ty : ListType)
    (args : List Node) (rest : List (Node × Node)) :
    ∃ f', step rules ae f (.ident fn, .list ty args) = some f' ∧ f'.relevancy = .notRelevant ∧
      f'.found ++ report kwArgsIn rules ae f'.defaultVisibility rest =
        f.found ++ report kwArgsIn rules ae f.defaultVisibility ((.ident fn, .list ty args) :: rest) := by
  unfold step
  rw [visit, if_pos hf]
  simp only []
  by_cases hp : fn = c!"package"
  · have hrel : isRelevant rules fn = .packageInfo := by unfold isRelevant; rw [if_pos hp]
    simp only [hrel]
    rw [if_neg (by simp), (visits_inside args _).2 rfl]
    refine ⟨_, rfl, rfl, ?_⟩
    rw [report, if_pos hp]
    simp only [takePackage]
    rw [if_neg (by simp), fold_package]
  · by_cases hr : rules = [] ∨ fn ∈ rules
    · have hrel : isRelevant rules fn = .userQuery := by
        unfold isRelevant
        rw [if_neg hp]
        by_cases h : rules = []
        · rw [if_pos h]
        · rw [if_neg h, if_pos (hr.resolve_left h)]
      simp only [hrel]
      rw [if_neg (by simp), (visits_inside args _).1 rfl]
      refine ⟨_, rfl, rfl, ?_⟩
      rw [report, if_neg hp]
      simp only [if_true]
      obtain ⟨h1, h2⟩ := informCaller_spec (ae := ae) (takeKeywords { f with
        current := { node := .call (.ident fn) (.list ty args), rule := fn }, relevancy := .userQuery }
        (kwArgsIn args)) f.defaultVisibility f.found fn (.list ty args) (kwArgsIn args) rfl rfl rfl
      rw [h1, h2]
      by_cases hn : ae = true ∨ (attributes f.defaultVisibility fn (.list ty args) (kwArgsIn args)).name ≠ []
      · rw [if_pos hn, if_pos ⟨hr, hn⟩]
        simp
      · rw [if_neg hn, if_neg (fun h => hn h.2)]
        simp
    · have hrel : isRelevant rules fn = .notRelevant := by
        unfold isRelevant
        rw [if_neg hp, if_neg (fun h => hr (Or.inl h)), if_neg (fun h => hr (Or.inr h))]
      rw [if_pos hrel]
      refine ⟨_, rfl, hf, ?_⟩
      rw [report, if_neg hp, if_neg (fun h => hr h.1)]

theorem steps_proper (ss : List (Node × Node)) (h : ∀ s ∈ ss, Proper s) : ∀ (f : Finder),
    f.relevancy = .notRelevant → ∃ f', steps rules ae f ss = some f' ∧ f'.relevancy = .notRelevant ∧
      f'.found = f.found ++ report kwArgsIn rules ae f.defaultVisibility ss := by
  induction ss with
  | nil => exact fun f hf => ⟨f, rfl, hf, by simp [report]⟩
  | cons s ss ih =>
    intro f hf
    obtain ⟨fn, ty, args, rfl⟩ := h s (by simp)
    obtain ⟨f1, h1, h2, h3⟩ := step_proper (rules := rules) (ae := ae) f hf fn ty args ss
    obtain ⟨f2, h4, h5, h6⟩ := ih (fun s hs => h s (by simp [hs])) f1 h2
    exact ⟨f2, by simp [steps, h1, h4], h5, by rw [h6, h3]⟩

/-- Outside of calls, only the calls count. -/
theorem visit_outside (n : Node) : (∀ s ∈ sites n, Proper s) → ∀ f : Finder,
    f.relevancy = .notRelevant → visit rules ae f n = steps rules ae f (sites n) := by
  have two : ∀ (l r : List (Node × Node)) (a b : Finder → Option Finder) (f : Finder),
      (∀ s ∈ l ++ r, Proper s) → f.relevancy = .notRelevant →
      ((∀ s ∈ l, Proper s) → ∀ f : Finder, f.relevancy = .notRelevant → a f = steps rules ae f l) →
      ((∀ s ∈ r, Proper s) → ∀ f : Finder, f.relevancy = .notRelevant → b f = steps rules ae f r) →
      (match a f with
        | none => none
        | some f => b f) = steps rules ae f (l ++ r) := by
    intro l r a b f hs hf ha hb
    have hl : ∀ s ∈ l, Proper s := fun s h => hs s (by simp [h])
    have hr : ∀ s ∈ r, Proper s := fun s h => hs s (by simp [h])
    rw [steps_append, ha hl f hf]
    obtain ⟨f', h1, h2, _⟩ := steps_proper (rules := rules) (ae := ae) l hl f hf
    rw [h1]
    exact hb hr f' h2
  induction n using Node.induct with
  | null => exact fun _ f _ => rfl
  | str => exact fun _ f _ => rfl
  | int => exact fun _ f _ => rfl
  | ident => exact fun _ f _ => rfl
  | unary op e ih => exact ih
  | binop op l r ih1 ih2 =>
    intro hs f hf
    rw [sites] at hs
    rw [visit, sites]
    exact two _ _ (fun f => visit rules ae f l) (fun f => visit rules ae f r) f hs hf ih1 ih2
  | list ty xs ih =>
    have key : ∀ ys : List Node, (∀ y ∈ ys, y ∈ xs) → (∀ s ∈ sitesIn ys, Proper s) → ∀ f : Finder,
        f.relevancy = .notRelevant → visits rules ae f ys = steps rules ae f (sitesIn ys) := by
      intro ys
      induction ys with
      | nil => exact fun _ _ f _ => rfl
      | cons y ys ih2 =>
        intro hsub hs f hf
        rw [sitesIn] at hs
        rw [visits, sitesIn]
        exact two _ _ (fun f => visit rules ae f y) (fun f => visits rules ae f ys) f hs hf
          (ih y (hsub y (by simp))) (ih2 (fun z hz => hsub z (by simp [hz])))
    exact key xs (fun _ h => h)
  | compr ty e ih => exact ih
  | ternary a b c ih1 ih2 ih3 =>
    intro hs f hf
    rw [sites] at hs
    rw [visit, sites, List.append_assoc]
    rw [List.append_assoc] at hs
    exact two _ _ (fun f => visit rules ae f a) (fun f => match visit rules ae f b with
        | none => none
        | some f => visit rules ae f c) f hs hf ih1
      (fun hs f hf => two _ _ (fun f => visit rules ae f b) (fun f => visit rules ae f c) f hs hf ih2 ih3)
  | assign l r ih1 ih2 =>
    intro hs f hf
    rw [visit]
    simp only [hf]
    rfl
  | call fn a ih1 ih2 =>
    intro hs f hf
    simp only [sites, steps, step]
    cases visit rules ae f (.call fn a) <;> rfl

theorem findTargets_report (ast : Node) (h : ∀ s ∈ sites ast, Proper s) :
    findTargets ae ast rules = some (report kwArgsIn rules ae none (sites ast)) := by
  unfold findTargets
  rw [visit_outside ast h {} rfl]
  obtain ⟨f', h1, _, h3⟩ := steps_proper (rules := rules) (ae := ae) _ h {} rfl
  rw [h1, Option.map_some, h3]
  rfl

end Query
end Bant
