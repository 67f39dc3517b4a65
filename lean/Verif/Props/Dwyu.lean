import Verif.Lemmas.DwyuRule
import Verif.Props.Patterns

/-! # Depend on what you use: suggested edits (C26, C27, C28, C29, C58) -/
namespace Bant
namespace Props
open Dwyu DwyuSpec Query Rules HeaderSpec Headers Paths Elab Parser

/-! ## C26: alternatives -/

/-- **C26**: sets of alternatives are reduced to a consistent choice, no check fails. -/
theorem C26_minimize (sets : List (List BazelTarget)) (hne : ∀ s ∈ sets, s ≠ []) :
    ∃ results, minimizeDependencySet sets = some results ∧ Reduced sets results := by
  obtain ⟨res, h1, h2, _⟩ := minimize_spec sets hne
  exact ⟨res, h1, h2⟩

theorem edits_of {files : Files} (hs : ∀ f ∈ files, Searchable f.2) {gen : Generator}
    (hg : Generator.create files = some gen) (hm : Made files gen) (env : Env) (pattern : BazelPattern) :
    createDependencyEdits env pattern files =
      some ((selected files pattern).flatMap fun x => (createEditsForTarget env gen x.2.2 x.2.1 x.1).getD []) := by
  unfold createDependencyEdits
  rw [hg, Option.bind_some]
  unfold createEditsForPattern selected
  rw [List.flatMap_assoc]
  refine mapAll_eq ?_
  rintro ⟨pkg, ast⟩ hf
  simp only []
  rw [List.flatMap_assoc]
  split
  · rename_i hp
    symm
    congr 1
    rw [List.flatMap_eq_nil_iff]
    intro r _
    cases hq : pkg.qualifiedTarget r.name with
    | none => rfl
    | some t =>
      simp only []
      have : pattern.matchTarget t = false := by
        cases ht : pattern.matchTarget t with
        | false => rfl
        | true =>
          have := C01_match_target_implies_package _ _ ht
          rw [qualifiedTarget_package hq] at this
          simp [this] at hp
      rw [this]
      rfl
  · refine forTargets_eq (hs _ hf).proper ?_
    intro r hr
    cases hq : pkg.qualifiedTarget r.name with
    | none => rfl
    | some t =>
      simp only []
      cases ht : pattern.matchTarget t with
      | false => rfl
      | true =>
        obtain ⟨edits, _, _, _, _, he, _⟩ := rule_account hm hs env (r := r) (target := t) ⟨ast, hf, hr, hq⟩
        simp [he]

theorem account_exists (files : Files) (hs : ∀ f ∈ files, Searchable f.2) (env : Env)
    (pattern : BazelPattern) :
    ∃ of : BazelPackage × Result × BazelTarget → List Edit,
      createDependencyEdits env pattern files = some ((selected files pattern).flatMap of) ∧
      ∀ pkg r target, Rule files pkg r target → ∃ sets needed removed libs,
        Account files env pkg r target (of (pkg, r, target)) sets needed removed libs := by
  obtain ⟨gen, hg, hm⟩ := create_made hs
  refine ⟨fun x => (createEditsForTarget env gen x.2.2 x.2.1 x.1).getD [], edits_of hs hg hm env pattern, ?_⟩
  intro pkg r target hr
  obtain ⟨edits, sets, needed, removed, libs, he, ha⟩ := rule_account hm hs env hr
  refine ⟨sets, needed, removed, libs, ?_⟩
  simpa [he] using ha

theorem selected_iff {files : Files} {pattern : BazelPattern} {pkg : BazelPackage} {r : Result}
    {t : BazelTarget} :
    (pkg, r, t) ∈ selected files pattern ↔ Rule files pkg r t ∧ pattern.matchTarget t = true := by
  unfold selected Rule
  simp only [List.mem_flatMap]
  constructor
  · rintro ⟨⟨p, ast⟩, hf, r', hr, h⟩
    cases hq : p.qualifiedTarget r'.name with
    | none => rw [hq] at h; cases h
    | some t' =>
      rw [hq] at h
      simp only [] at h
      split at h
      · rename_i hp
        simp only [List.mem_singleton, Prod.mk.injEq] at h
        obtain ⟨rfl, rfl, rfl⟩ := h
        exact ⟨⟨ast, hf, hr, hq⟩, hp⟩
      · cases h
  · rintro ⟨⟨ast, hf, hr, hq⟩, hp⟩
    exact ⟨(pkg, ast), hf, r, hr, by simp [hq, hp]⟩

/-- **C26, C27, C28**: in every project, the suggested edits are those of the selected rules, in
order; and for each rule, they are the ones that a consistent choice for the alternatives calls
for. No check fails. -/
theorem C28_account (files : Files) (hs : ∀ f ∈ files, Searchable f.2) (env : Env)
    (pattern : BazelPattern) :
    ∃ of : BazelPackage × Result × BazelTarget → List Edit,
      createDependencyEdits env pattern files = some ((selected files pattern).flatMap of) ∧
      ∀ pkg r target, (pkg, r, target) ∈ selected files pattern → ∃ sets needed removed libs,
        Account files env pkg r target (of (pkg, r, target)) sets needed removed libs := by
  obtain ⟨of, h1, h2⟩ := account_exists files hs env pattern
  exact ⟨of, h1, fun pkg r target h => h2 pkg r target (selected_iff.1 h).1⟩

/-- Where an edit comes from. -/
theorem edit_account {files : Files} (hs : ∀ f ∈ files, Searchable f.2) {env : Env}
    {pattern : BazelPattern} {edits : List Edit} (he : createDependencyEdits env pattern files = some edits)
    {e : Edit} (hm : e ∈ edits) :
    ∃ pkg r edits sets needed removed libs, Rule files pkg r e.target ∧
      pattern.matchTarget e.target = true ∧ Account files env pkg r e.target edits sets needed removed libs ∧
      e ∈ edits := by
  obtain ⟨of, h1, h2⟩ := C28_account files hs env pattern
  rw [h1] at he
  cases he
  rw [List.mem_flatMap] at hm
  obtain ⟨⟨pkg, r, target⟩, hsel, hm⟩ := hm
  obtain ⟨sets, needed, removed, libs, ha⟩ := h2 pkg r target hsel
  have ht : e.target = target := by
    have := hm
    rw [ha.emitted, List.mem_append, List.mem_map, List.mem_map] at this
    rcases this with ⟨_, _, rfl⟩ | ⟨_, _, rfl⟩ <;> rfl
  obtain ⟨h3, h4⟩ := selected_iff.1 hsel
  subst ht
  exact ⟨pkg, r, _, sets, needed, removed, libs, h3, h4, ha, hm⟩

/-! ## C27: removals -/

/-- The claim of C27. -/
def C27_statement : Prop :=
  ∀ (files : Files) (env : Env) (pattern : BazelPattern) (edits : List Edit),
    (∀ f ∈ files, Searchable f.2) → createDependencyEdits env pattern files = some edits →
    ∀ e ∈ edits, e.op = .remove → ∃ pkg r t n, Rule files pkg r e.target ∧
      (stringsOf r.deps)[n]? = some e.before ∧
      BazelTarget.parseFrom e.before e.target.package = some t ∧
      Accounted files env pkg e.target r ∧
      (∃ l, Library files t l ∧ l.alwayslink = false) ∧
      (env.ignoreKeep = true ∨ ¬ KeepComment (env.line r e.target n)) ∧
      ∀ inc found, Needs env pkg e.target r inc → FoundAs files pkg inc found → ¬ Provides files found t

/-- **C27**, without the claim that the dependency provides none of the needed headers: instead,
for each of the headers that it provides, if it is visible, there is another visible library that
provides the same header. -/
theorem C27_removal_partial (files : Files) (env : Env) (pattern : BazelPattern) (edits : List Edit)
    (hs : ∀ f ∈ files, Searchable f.2) (hc : createDependencyEdits env pattern files = some edits)
    (e : Edit) (he : e ∈ edits) (hop : e.op = .remove) :
    ∃ pkg r t n, Rule files pkg r e.target ∧ pattern.matchTarget e.target = true ∧
      (stringsOf r.deps)[n]? = some e.before ∧ e.after = [] ∧
      BazelTarget.parseFrom e.before e.target.package = some t ∧
      Accounted files env pkg e.target r ∧
      (∃ l, Library files t l ∧ l.alwayslink = false) ∧
      (env.ignoreKeep = true ∨ ¬ KeepComment (env.line r e.target n)) ∧
      ∀ inc, Needs env pkg e.target r inc → ∃ found, FoundAs files pkg inc found ∧
        (Provides files found t → Visible files e.target t →
          ∃ t', t' ≠ t ∧ Provides files found t' ∧ Visible files e.target t') := by
  obtain ⟨pkg, r, es, sets, needed, removed, libs, hr, hp, ha, hin⟩ := edit_account hs hc he
  rw [ha.emitted, List.mem_append, List.mem_map, List.mem_map] at hin
  obtain ⟨op, target, before, after⟩ := e
  simp only at hop hr hp ha hin ⊢
  have hin : before ∈ removed ∧ after = [] := by
    rcases hin with ⟨dep, hdep, h⟩ | ⟨_, _, h⟩
    · injection h with _ _ h1 h2
      subst h1; exact ⟨hdep, h2.symm⟩
    · injection h with h _ _ _
      rw [← h] at hop; cases hop
  obtain ⟨hdep, hafter⟩ := hin
  obtain ⟨n, t, g1, g2, g3, g4, g5, g6⟩ := (ha.removed_iff before).1 hdep
  refine ⟨pkg, r, t, n, hr, hp, g1, hafter, g2, g3, g4, g5, ?_⟩
  intro inc hi
  rcases ha.alternatives.for_inc inc hi with h | ⟨found, hf, h | ⟨s, hsm, h⟩⟩
  · obtain ⟨found, hf⟩ := g3.2 inc hi
    exact absurd hf (h found)
  · exact ⟨found, hf, fun a b => absurd b (h t a)⟩
  · refine ⟨found, hf, fun a b => ?_⟩
    obtain ⟨res, hres, hsub⟩ := ha.reduced.covers s hsm
    obtain ⟨t', ht'⟩ := List.exists_mem_of_ne_nil _ (ha.reduced.nonempty res hres)
    refine ⟨t', ?_, ((h t').1 (hsub t' ht'))⟩
    rintro rfl
    exact g6 res hres ht'

/-- **C27**: the only visible library that provides an included header (under the very path of
the include) is never removed. -/
theorem C27_sole_provider_partial (files : Files) (env : Env) (pattern : BazelPattern)
    (edits : List Edit) (hs : ∀ f ∈ files, Searchable f.2)
    (hc : createDependencyEdits env pattern files = some edits)
    (target t : BazelTarget) (dep inc : Str)
    (ht : BazelTarget.parseFrom dep target.package = some t)
    (hneed : ∀ pkg r, Rule files pkg r target → Needs env pkg target r inc)
    (hprov : Provides files inc t) (hvis : Visible files target t)
    (hsole : ∀ t', Provides files inc t' → Visible files target t' → t' = t) :
    ⟨.remove, target, dep, []⟩ ∉ edits := by
  intro he
  obtain ⟨pkg, r, t0, n, h1, h2, h3, h4, h5, h6, h7, h8, h9⟩ :=
    C27_removal_partial files env pattern edits hs hc _ he rfl
  rw [ht] at h5; cases h5
  obtain ⟨found, hf, h⟩ := h9 inc (hneed pkg r h1)
  have : found = inc := by
    rcases hf with ⟨_, h | ⟨h, _⟩⟩ | ⟨h, _⟩
    · exact h
    · exact absurd hprov (h t)
    · exact absurd ⟨⟨t, hprov⟩, .inl rfl⟩ (h inc)
  subst this
  obtain ⟨t', a, b, c⟩ := h hprov hvis
  exact a (hsole t' b c)

/-- **C27**: whatever is removed, each included header that some visible library provides is still
provided by a dependency that is kept, or one that is added; or the user has to choose among
several, or the only choice is not for use by this rule. -/
theorem C27_served_partial (files : Files) (hs : ∀ f ∈ files, Searchable f.2) (env : Env)
    (pattern : BazelPattern) :
    ∃ of : BazelPackage × Result × BazelTarget → List Edit,
      createDependencyEdits env pattern files = some ((selected files pattern).flatMap of) ∧
      ∀ pkg r target, (pkg, r, target) ∈ selected files pattern → ∀ inc, Needs env pkg target r inc →
        (∀ found, ¬ FoundAs files pkg inc found) ∨
        ∃ found, FoundAs files pkg inc found ∧
        ((∀ t, Provides files found t → ¬ Visible files target t) ∨
        ∃ choice : List BazelTarget, choice ≠ [] ∧ choice.Nodup ∧
          (∀ t ∈ choice, Provides files found t ∧ Visible files target t) ∧
          ((∃ t ∈ choice, ∃ dep ∈ stringsOf r.deps, BazelTarget.parseFrom dep target.package = some t ∧
              ⟨.remove, target, dep, []⟩ ∉ of (pkg, r, target)) ∨
            (∃ t ∈ choice, ⟨.add, target, [], t.toStringRelativeTo target.package⟩ ∈ of (pkg, r, target)) ∨
            2 ≤ choice.length ∨
            ∃ t ∈ choice, ¬ TestonlyOk files target t)) := by
  obtain ⟨of, h1, h2⟩ := C28_account files hs env pattern
  refine ⟨of, h1, ?_⟩
  intro pkg r target hsel inc hi
  obtain ⟨sets, needed, removed, libs, ha⟩ := h2 pkg r target hsel
  rcases ha.alternatives.for_inc inc hi with h | ⟨found, hf, h | ⟨s, hsm, h⟩⟩
  · exact .inl h
  · exact .inr ⟨found, hf, .inl h⟩
  refine .inr ⟨found, hf, .inr ?_⟩
  obtain ⟨res, hres, hsub⟩ := ha.reduced.covers s hsm
  have hne := ha.reduced.nonempty res hres
  refine ⟨res, hne, ha.distinct res hres, fun t ht => (h t).1 (hsub t ht), ?_⟩
  by_cases hdep : ∃ t ∈ res, DependsOn target r t
  · left
    obtain ⟨t, ht, dep, hd, hp⟩ := hdep
    refine ⟨t, ht, dep, hd, hp, ?_⟩
    rw [ha.emitted, List.mem_append, List.mem_map, List.mem_map]
    rintro (⟨d, hd', he⟩ | ⟨_, _, he⟩)
    · injection he with _ _ he _
      subst he
      obtain ⟨n, t', g1, g2, g3, g4, g5, g6⟩ := (ha.removed_iff d).1 hd'
      rw [hp] at g2; cases g2
      exact g6 res hres ht
    · cases he
  · right
    match res, hne with
    | [t], _ =>
      by_cases hto : TestonlyOk files target t
      · left
        refine ⟨t, by simp, ?_⟩
        rw [ha.emitted, List.mem_append]
        right
        rw [List.mem_map]
        refine ⟨t, (ha.libs_iff t).2 ⟨hres, fun hc => hdep ⟨t, by simp, hc⟩, ?_, hto⟩, rfl⟩
        exact ((h t).1 (hsub t (by simp))).2
      · exact .inr (.inr ⟨t, by simp, hto⟩)
    | _ :: _ :: _, _ => exact .inr (.inl (by simp))

/-! ## C28: additions -/

/-- A library that is `testonly` can only be used by others of the kind, and by tests. -/
def Compatible (files : Files) (r : Result) (dep : BazelTarget) : Prop :=
  ∀ l, Library files dep l → l.testonly = true → r.testonly = true ∨ r.rule = c!"cc_test"

/-- `t` is the only alternative left: there are included headers such that `t` is the only
visible library that provides all of them. -/
def OnlyChoice (files : Files) (env : Env) (pkg : BazelPackage) (r : Result) (target t : BazelTarget) :
    Prop :=
  ∃ headers : List (Str × Str), headers ≠ [] ∧
    (∀ h ∈ headers, Needs env pkg target r h.1 ∧ FoundAs files pkg h.1 h.2) ∧
    ∀ t', (∀ h ∈ headers, Provides files h.2 t' ∧ Visible files target t') ↔ t' = t

/-- The claim of C28 about each edit. -/
def C28_statement : Prop :=
  ∀ (files : Files) (env : Env) (pattern : BazelPattern) (edits : List Edit),
    (∀ f ∈ files, Searchable f.2) → createDependencyEdits env pattern files = some edits →
    ∀ e ∈ edits, e.op = .add → ∃ pkg r t, Rule files pkg r e.target ∧
      e.after = t.toStringRelativeTo e.target.package ∧
      (∃ inc found, Needs env pkg e.target r inc ∧ FoundAs files pkg inc found ∧ Provides files found t) ∧
      ¬ DependsOn e.target r t ∧ Visible files e.target t ∧ Compatible files r t ∧
      OnlyChoice files env pkg r e.target t

/-- **C28**, where the check of `testonly` only holds for libraries and tests. -/
theorem C28_add_partial (files : Files) (env : Env) (pattern : BazelPattern) (edits : List Edit)
    (hs : ∀ f ∈ files, Searchable f.2) (hc : createDependencyEdits env pattern files = some edits)
    (e : Edit) (he : e ∈ edits) (hop : e.op = .add) :
    ∃ pkg r t, Rule files pkg r e.target ∧ pattern.matchTarget e.target = true ∧ e.before = [] ∧
      e.after = t.toStringRelativeTo e.target.package ∧
      (∃ inc found, Needs env pkg e.target r inc ∧ FoundAs files pkg inc found ∧ Provides files found t) ∧
      ¬ DependsOn e.target r t ∧ Visible files e.target t ∧
      (Library files e.target r → Compatible files r t) ∧
      OnlyChoice files env pkg r e.target t := by
  obtain ⟨pkg, r, es, sets, needed, removed, libs, hr, hp, ha, hin⟩ := edit_account hs hc he
  rw [ha.emitted, List.mem_append, List.mem_map, List.mem_map] at hin
  obtain ⟨op, target, before, after⟩ := e
  simp only at hop hr hp ha hin ⊢
  have hin : ∃ t ∈ libs, before = [] ∧ after = t.toStringRelativeTo target.package := by
    rcases hin with ⟨_, _, h⟩ | ⟨t, ht, h⟩
    · injection h with h _ _ _
      rw [← h] at hop; cases hop
    · injection h with _ _ h1 h2
      exact ⟨t, ht, h1.symm, h2.symm⟩
  obtain ⟨t, ht, hbefore, hafter⟩ := hin
  obtain ⟨g1, g2, g3, g4⟩ := (ha.libs_iff t).1 ht
  have honly : OnlyChoice files env pkg r target t := by
    obtain ⟨family, hne, hfam, hiff⟩ := ha.reduced.common [t] g1
    have hof : ∀ fam : List (List BazelTarget), (∀ s ∈ fam, s ∈ sets) → ∃ headers : List (Str × Str),
        headers.length = fam.length ∧
        (∀ h ∈ headers, Needs env pkg target r h.1 ∧ FoundAs files pkg h.1 h.2) ∧
        ∀ t', (∀ h ∈ headers, Provides files h.2 t' ∧ Visible files target t') ↔ ∀ s ∈ fam, t' ∈ s := by
      intro fam
      induction fam with
      | nil => exact fun _ => ⟨[], rfl, by simp, by simp⟩
      | cons s fam ih =>
        intro h
        obtain ⟨headers, a1, a2, a3⟩ := ih fun x hx => h x (.tail _ hx)
        obtain ⟨_, _, inc, found, b1, b2, b3⟩ := ha.alternatives.from_inc s (h s (by simp))
        refine ⟨(inc, found) :: headers, by simp [a1], ?_, ?_⟩
        · intro x hx
          rcases List.mem_cons.1 hx with rfl | hx
          · exact ⟨b1, b2⟩
          · exact a2 x hx
        · intro t'
          have b3 := b3 t'
          have a3 := a3 t'
          simp only [List.forall_mem_cons]
          rw [b3, a3]
    obtain ⟨headers, a1, a2, a3⟩ := hof family hfam
    refine ⟨headers, ?_, a2, ?_⟩
    · intro h
      rw [h] at a1
      exact hne (List.length_eq_zero_iff.1 a1.symm)
    · intro t'
      rw [a3, ← hiff, List.mem_singleton]
  refine ⟨pkg, r, t, hr, hp, hbefore, hafter, ?_, g2, g3, ?_, honly⟩
  · obtain ⟨headers, hne, h1, h2⟩ := honly
    obtain ⟨⟨inc, found⟩, hh⟩ := List.exists_mem_of_ne_nil _ hne
    exact ⟨inc, found, (h1 _ hh).1, (h1 _ hh).2, ((h2 t).2 rfl _ hh).1⟩
  · intro hl l hlib hto
    exact g4 l hlib hto r hl

/-- **C28**: for each rule, there is at most one edit for each library. -/
theorem C28_once (files : Files) (hs : ∀ f ∈ files, Searchable f.2) (env : Env)
    (pattern : BazelPattern) :
    ∃ of : BazelPackage × Result × BazelTarget → List Edit,
      createDependencyEdits env pattern files = some ((selected files pattern).flatMap of) ∧
      ∀ pkg r target, (pkg, r, target) ∈ selected files pattern → ∃ libs : List BazelTarget,
        libs.Nodup ∧ (of (pkg, r, target)).filter (·.op = .add) =
          libs.map fun t => ⟨.add, target, [], t.toStringRelativeTo target.package⟩ := by
  obtain ⟨of, h1, h2⟩ := C28_account files hs env pattern
  refine ⟨of, h1, ?_⟩
  intro pkg r target hsel
  obtain ⟨sets, needed, removed, libs, ha⟩ := h2 pkg r target hsel
  refine ⟨libs, ha.once, ?_⟩
  rw [ha.emitted, List.filter_append]
  have a : (removed.map fun dep => (⟨.remove, target, dep, []⟩ : Edit)).filter (·.op = .add) = [] := by
    rw [List.filter_eq_nil_iff]
    intro x hx
    obtain ⟨_, _, rfl⟩ := List.mem_map.1 hx
    simp
  have b : ∀ l : List BazelTarget, (l.map fun t => (⟨.add, target, [], t.toStringRelativeTo target.package⟩ : Edit)).filter
      (·.op = .add) = l.map fun t => ⟨.add, target, [], t.toStringRelativeTo target.package⟩ := by
    intro l
    rw [List.filter_eq_self]
    intro x hx
    obtain ⟨_, _, rfl⟩ := List.mem_map.1 hx
    simp
  rw [a, b, List.nil_append]

/-! ## Examples -/

/-- The tree of a file. -/
def treeOf (text : Str) : Node := ((parseFile text).map (·.1)).getD .null

/-- A file without errors. -/
def parsesWell (text : Str) : Bool :=
  match parseFile text with
  | some (.list .list _, st) => st.errs.isEmpty
  | _ => false

/-- A project with a single file. -/
def projectOf (text : Str) : Files := [(somePkg, treeOf text)]

theorem projectOf_searchable {text : Str} (h : parsesWell text = true) :
    ∀ f ∈ projectOf text, Searchable f.2 := by
  intro f hf
  have hf : f = (somePkg, treeOf text) := by simpa [projectOf] using hf
  subst hf
  unfold parsesWell at h
  split at h
  · rename_i stmts st he
    have : treeOf text = .list .list stmts := by simp [treeOf, he]
    rw [this]
    exact (C56_searchable (fun _ _ => []) _ _ _ he (by simpa using h)).1
  · cases h

/-- Sources, and the line of each dependency. -/
def envOf (sources : List (Str × Str)) (line : Str) (ignoreKeep : Bool) : Env :=
  ⟨fun path => (sources.find? (·.1 = path)).map (·.2), [], fun _ _ _ => line, ignoreKeep⟩

/-- Edits for a project that has a single file, and a single source `l.cc`. -/
def editsOf (text source line : Str) : Option (List Edit) :=
  createDependencyEdits (envOf [(c!"p/l.cc", source)] line false) .always (projectOf text)

/-- A target of the package. -/
def local! (name : Str) : BazelTarget := ⟨somePkg, name⟩

def threeLibs : Str :=
  c!"cc_library(name=\"a\",hdrs=[\"x.h\"])\ncc_library(name=\"b\",hdrs=[\"y.h\"])\ncc_library(name=\"c\",hdrs=[\"z.h\"],alwayslink=True)\n"

/-- What is used is added, what is not used is removed. -/
example : editsOf (threeLibs ++ c!"cc_library(name=\"l\",srcs=[\"l.cc\"],deps=[\":a\",\":c\"])")
    c!"#include \"p/y.h\"\n" [] =
    some [⟨.remove, local! c!"l", c!":a", []⟩, ⟨.add, local! c!"l", [], c!":b"⟩] := by decide +kernel
/-- Nothing to do. -/
example : editsOf (threeLibs ++ c!"cc_library(name=\"l\",srcs=[\"l.cc\"],deps=[\":a\",\":b\"])")
    c!"#include \"p/y.h\"\n#include \"p/x.h\"\n" [] = some [] := by decide +kernel
/-- A comment prevents removal. -/
example : editsOf (threeLibs ++ c!"cc_library(name=\"l\",srcs=[\"l.cc\"],deps=[\":a\"])")
    c!"" c!"  \":a\",  # please keep" = some [] := by decide +kernel
/-- Nothing is removed if some header is not accounted for. -/
example : editsOf (threeLibs ++ c!"cc_library(name=\"l\",srcs=[\"l.cc\"],deps=[\":a\"])")
    c!"#include \"unknown.h\"\n" [] = some [] := by decide +kernel
/-- Several alternatives. -/
example : editsOf c!"cc_library(name=\"a\",hdrs=[\"x.h\"])\nalias(name=\"b\",actual=\":a\")\ncc_library(name=\"l\",srcs=[\"l.cc\"])"
    c!"#include \"p/x.h\"\n" [] = some [] := by decide +kernel
example : minimizeDependencySet [[local! c!"a", local! c!"b"], [local! c!"c"], [local! c!"b", local! c!"d"]] =
    some [[local! c!"b"], [local! c!"c"]] := by decide +kernel

/-! ### C27 does not hold -/

/-- A library whose use is deprecated. -/
def deprecatedText : Str :=
  c!"cc_library(name=\"old\",hdrs=[\"x.h\"],deprecation=\"use something else\")\ncc_library(name=\"l\",srcs=[\"l.cc\"],deps=[\":old\"])"

def deprecatedSource : Str := c!"#include \"p/x.h\"\n"

/-- The only library that provides an included header is removed. -/
theorem deprecated_removed : editsOf deprecatedText deprecatedSource [] =
    some [⟨.remove, local! c!"l", c!":old", []⟩] := by decide +kernel

/-- Providers of a header, computed. -/
theorem provides_of {files : Files} (hs : ∀ f ∈ files, Searchable f.2) {path : Str} {ts : List BazelTarget}
    (h : (extractHeaderToLibMapping files).bind (HeaderIndex.findBySuffix · path 2) = some (some ⟨path, ts, 0⟩)) :
    ∀ t, t ∈ ts ↔ Provides files path t := by
  obtain ⟨index, hi, hl⟩ := C56_lookup files hs
  rw [hi, Option.bind_some] at h
  obtain ⟨h1, h2⟩ := hl path 2
  by_cases hex : ∃ t, Provides files path t
  · obtain ⟨ts', h3, h4⟩ := h1 hex
    rw [h] at h3
    cases h3
    exact h4
  · have hno : ∀ t, ¬ Provides files path t := fun t ht => hex ⟨t, ht⟩
    rcases h2 hno with ⟨h3, _⟩ | ⟨found, ts', score, h3, h4, _, h5, h6, _⟩
    · rw [h] at h3; cases h3
    · rw [h] at h3
      cases h3
      omega

/-- The rules of a project with a single file. -/
theorem rule_project {text : Str} {pkg : BazelPackage} {r : Result} {t : BazelTarget}
    (h : Rule (projectOf text) pkg r t) :
    pkg = somePkg ∧ r ∈ rulesOf [c!"cc_library", c!"cc_binary", c!"cc_test"] (treeOf text) ∧
      somePkg.qualifiedTarget r.name = some t := by
  obtain ⟨ast, hf, hr, hq⟩ := h
  simp only [projectOf, List.mem_singleton, Prod.mk.injEq] at hf
  obtain ⟨rfl, rfl⟩ := hf
  exact ⟨rfl, hr, hq⟩

theorem C27_counterexample : ¬ C27_statement := by
  intro h
  have hs := projectOf_searchable (text := deprecatedText) (by decide +kernel)
  obtain ⟨pkg, r, t, n, h1, h2, h3, h4, h5, h6, h7⟩ := h _ _ _ _ hs deprecated_removed _
    (List.mem_singleton.2 rfl) rfl
  have ht : BazelTarget.parseFrom c!":old" somePkg = some (local! c!"old") := by decide +kernel
  have h3 : BazelTarget.parseFrom c!":old" somePkg = some t := h3
  rw [ht] at h3
  cases h3
  have hp := (provides_of hs (path := c!"p/x.h") (ts := [local! c!"old"]) (by decide +kernel) (local! c!"old")).1
    (by simp)
  obtain ⟨rfl, hr, hq⟩ := rule_project h1
  have hsrc : ∀ r ∈ rulesOf [c!"cc_library", c!"cc_binary", c!"cc_test"] (treeOf deprecatedText),
      somePkg.qualifiedTarget r.name = some (local! c!"l") → sourcesOf r = [c!"l.cc"] := by decide +kernel
  have hsrc := hsrc r hr hq
  refine h7 c!"p/x.h" c!"p/x.h" ⟨⟨c!"l.cc", by rw [hsrc]; simp, deprecatedSource,
    ⟨[], c!"", _, rfl, by decide +kernel, by simp⟩, 10, by decide +kernel⟩, ?_⟩ (.inl ⟨⟨_, hp⟩, .inl rfl⟩) hp
  rw [hsrc]
  intro src h
  simp only [List.mem_singleton] at h
  subst h
  decide

/-- Another reason: two libraries are replaced by one that provides the headers of both. -/
example : editsOf c!"cc_library(name=\"a\",hdrs=[\"x.h\"])\ncc_library(name=\"b\",hdrs=[\"x.h\",\"y.h\"])\ncc_library(name=\"c\",hdrs=[\"y.h\"])\ncc_library(name=\"l\",srcs=[\"l.cc\"],deps=[\":a\",\":c\"])"
    c!"#include \"p/x.h\"\n#include \"p/y.h\"\n" [] =
    some [⟨.remove, local! c!"l", c!":a", []⟩, ⟨.remove, local! c!"l", c!":c", []⟩,
      ⟨.add, local! c!"l", [], c!":b"⟩] := by decide +kernel

/-! ### C28 does not hold -/

/-- A binary that is not for tests, and a library that is. -/
def binaryText : Str :=
  c!"cc_library(name=\"t\",hdrs=[\"x.h\"],testonly=True)\ncc_binary(name=\"l\",srcs=[\"l.cc\"])"

theorem testonly_added : editsOf binaryText deprecatedSource [] =
    some [⟨.add, local! c!"l", [], c!":t"⟩] := by decide +kernel

/-- Everything that is provided, computed. -/
theorem provides_all {files : Files} (hs : ∀ f ∈ files, Searchable f.2) {q : Str → BazelTarget → Bool}
    (h : (headerAdds files).map (·.all fun e => q e.1 e.2) = some true) :
    ∀ p t, Provides files p t → q p t = true := by
  obtain ⟨adds, h1, h2⟩ := headerAdds_spec hs
  rw [h1, Option.map_some, Option.some.injEq, List.all_eq_true] at h
  exact fun p t hp => h (p, t) ((h2 p t).2 hp)

theorem C28_counterexample : ¬ C28_statement := by
  intro h
  have hs := projectOf_searchable (text := binaryText) (by decide +kernel)
  obtain ⟨pkg, r, t, h1, h2, ⟨inc, found, hn, hf, hp⟩, h4, h5, h6, h7⟩ := h _ _ _ _ hs testonly_added _
    (List.mem_singleton.2 rfl) rfl
  have ht := provides_all hs (q := fun _ t => t = local! c!"t") (by decide +kernel) _ _ hp
  have ht : t = local! c!"t" := by simpa using ht
  subst ht
  obtain ⟨rfl, hr, hq⟩ := rule_project h1
  have hrule : ∀ r ∈ rulesOf [c!"cc_library", c!"cc_binary", c!"cc_test"] (treeOf binaryText),
      somePkg.qualifiedTarget r.name = some (local! c!"l") → r.testonly = false ∧ r.rule = c!"cc_binary" := by
    decide +kernel
  obtain ⟨g1, g2⟩ := hrule r hr hq
  have hlib : ((libraries (projectOf binaryText)).find? (·.1 = local! c!"t")).map (·.2.testonly) = some true := by
    decide +kernel
  rw [Option.map_eq_some_iff] at hlib
  obtain ⟨e, he, hto⟩ := hlib
  rcases h6 e.2 (library_iff.2 (by rw [he]; rfl)) hto with h | h
  · rw [g1] at h; cases h
  · rw [g2] at h; cases h

/-- For a library or a test, nothing is added. -/
example : editsOf c!"cc_library(name=\"t\",hdrs=[\"x.h\"],testonly=True)\ncc_library(name=\"l\",srcs=[\"l.cc\"])"
    deprecatedSource [] = some [] := by decide +kernel
example : editsOf c!"cc_library(name=\"t\",hdrs=[\"x.h\"],testonly=True)\ncc_test(name=\"l\",srcs=[\"l.cc\"])"
    deprecatedSource [] = some [⟨.add, local! c!"l", [], c!":t"⟩] := by decide +kernel

/-! ## C58: a rule does not depend on itself -/

/-- The claim of C58. -/
def C58_statement : Prop :=
  ∀ (files : Files) (env : Env) (pattern : BazelPattern) (edits : List Edit),
    (∀ f ∈ files, Searchable f.2) → createDependencyEdits env pattern files = some edits →
    ∀ e ∈ edits, e.op = .add → e.after ≠ e.target.toStringRelativeTo e.target.package

/-- A library with a header that is included under a different path. -/
def prefixText : Str :=
  c!"cc_library(name=\"l\",srcs=[\"l.cc\"],hdrs=[\"x.h\"],include_prefix=\"lib\")"

theorem self_added : editsOf prefixText c!"#include \"lib/x.h\"\n" [] =
    some [⟨.add, local! c!"l", [], c!":l"⟩] := by decide +kernel

theorem C58_counterexample : ¬ C58_statement := by
  intro h
  exact h _ _ _ _ (projectOf_searchable (text := prefixText) (by decide +kernel)) self_added _
    (List.mem_singleton.2 rfl) rfl (by decide)

/-- The same happens for headers listed in another attribute. -/
example : editsOf c!"cc_library(name=\"l\",srcs=[\"l.cc\"],textual_hdrs=[\"x.inc\"])"
    c!"#include \"p/x.inc\"\n" [] = some [⟨.add, local! c!"l", [], c!":l"⟩] := by decide +kernel
/-- Not for those in `hdrs`. -/
example : editsOf c!"cc_library(name=\"l\",srcs=[\"l.cc\"],hdrs=[\"x.h\"])"
    c!"#include \"p/x.h\"\n" [] = some [] := by decide +kernel

/-- All headers of a library are in `hdrs`, and among `sources`, without directories to strip or
to add. -/
structure PlainLibrary (pkg : BazelPackage) (sources : List Str) (r : Result) : Prop where
  noPrefix : r.includePrefix = []
  noStrip : r.stripIncludePrefix = []
  noIncludes : stringsOf r.includes = []
  onlyHdrs : stringsOf r.textualHdrs ++ stringsOf r.publicHdrs = []
  hdrs : ∀ h ∈ stringsOf r.hdrs, h ∈ sources ∧ ¬ c!":" <+: h ∧
    ¬ c!"/" <+: pkg.qualifiedFile h ∧ ¬ c!"./" <+: pkg.qualifiedFile h

theorem plain_provides {files : Files} {pkg : BazelPackage} {target : BazelTarget} {sources : List Str}
    (hpkg : target.package = pkg)
    (hlib : ∀ ast r, (pkg, ast) ∈ files → r ∈ rulesOf [c!"cc_library", c!"grpc_cc_library"] ast →
      pkg.qualifiedTarget r.name = some target → PlainLibrary pkg sources r)
    (halias : ∀ t, ¬ Alias files t target)
    (hproto : ∀ ast grpc p, (pkg, ast) ∈ files → (p, target) ∉ protoRules pkg ast grpc) {path : Str}
    (hp : Provides files path target) : ∃ h ∈ sources, path = h ∧ target.package.path = [] ∨
      path = target.package.path ++ c!"/" ++ h := by
  cases hp with
  | @library pk ast r lib h p path t hf hr hq hh _ hi hn ht =>
    have ht : lib = target := by
      rcases ht with h | h
      · exact h.symm
      · exact absurd h (halias _)
    subst ht
    have := qualifiedTarget_package hq
    rw [hpkg] at this
    subst this
    have hl := hlib ast r hf hr hq
    rw [List.append_assoc, hl.onlyHdrs, List.append_nil] at hh
    obtain ⟨h1, h2, h3, h4⟩ := hl.hdrs h hh
    have hi : p = pkg.qualifiedFile h := by
      cases hi with
      | prescribed hc => exact absurd hl.noPrefix hc
      | short _ htr hd _ =>
        rw [hl.noStrip] at htr
        obtain ⟨n, m, he, _⟩ := htr
        have : _ = ([] : Str) := he.symm
        simp at this
        exact absurd this.2.1 hd
      | long => rfl
      | relative _ hd => rw [hl.noIncludes] at hd; cases hd
    subst hi
    obtain ⟨n, m, he, _⟩ := hn
    have hout : path = pkg.qualifiedFile h := by
      cases n with
      | succ n => exact absurd ⟨_, by rw [he, List.replicate_succ, List.flatten_cons]; simp; rfl⟩ h4
      | zero =>
        cases m with
        | succ m => exact absurd ⟨_, by rw [he, List.replicate_succ]; simp; rfl⟩ h3
        | zero => simpa using he.symm
    have hcolon : ∀ r, h ≠ ':' :: r := fun r hc => h2 ⟨r, by rw [hc]; rfl⟩
    refine ⟨h, h1, ?_⟩
    rw [hpkg, hout]
    unfold BazelPackage.qualifiedFile
    by_cases he : pkg.path = []
    · left
      rw [if_pos he]
      refine ⟨?_, he⟩
      split
      · exact absurd rfl (hcolon _)
      · rfl
    · right
      rw [if_neg he]
      split
      · exact absurd rfl (hcolon _)
      · simp
  | @proto pk ast r proto grpc src stem ext lib hf hr hq hfind hsrc hst hext =>
    rw [Option.map_eq_some_iff] at hfind
    obtain ⟨⟨p, l⟩, h1, h2⟩ := hfind
    have h2 : l = target := h2
    subst h2
    have hmem := List.mem_of_find?_eq_some h1
    have : l.package = pk := by
      unfold protoRules at hmem
      rw [List.mem_flatMap] at hmem
      obtain ⟨r', _, hm⟩ := hmem
      cases hq' : pk.qualifiedTarget r'.name with
      | none => rw [hq'] at hm; cases hm
      | some lib' =>
        rw [hq'] at hm
        simp only [List.mem_filterMap, Option.map_eq_some_iff] at hm
        obtain ⟨_, _, _, _, he⟩ := hm
        cases he
        exact qualifiedTarget_package hq'
    rw [hpkg] at this
    subst this
    exact absurd hmem (hproto ast grpc p hf)

/-- Providers are in packages of the project. -/
theorem provides_package {files : Files} {path : Str} {t : BazelTarget} (hp : Provides files path t) :
    ∃ f ∈ files, t.package = f.1 := by
  cases hp with
  | @library pk ast r lib h p path t hf hr hq hh _ hi hn ht =>
    rcases ht with rfl | ⟨pkg, ast', r', hf', _, hq', _⟩
    · exact ⟨_, hf, qualifiedTarget_package hq⟩
    · exact ⟨_, hf', qualifiedTarget_package hq'⟩
  | @proto pk ast r proto grpc src stem ext lib hf hr hq hfind hsrc hst hext =>
    rw [Option.map_eq_some_iff] at hfind
    obtain ⟨⟨p, l⟩, h1, h2⟩ := hfind
    have h2 : l = t := h2
    subst h2
    refine ⟨_, hf, ?_⟩
    have hmem := List.mem_of_find?_eq_some h1
    unfold protoRules at hmem
    rw [List.mem_flatMap] at hmem
    obtain ⟨r', _, hm⟩ := hmem
    cases hq' : pk.qualifiedTarget r'.name with
    | none => rw [hq'] at hm; cases hm
    | some lib' =>
      rw [hq'] at hm
      simp only [List.mem_filterMap, Option.map_eq_some_iff] at hm
      obtain ⟨_, _, _, _, he⟩ := hm
      cases he
      exact qualifiedTarget_package hq'

theorem toString_head {t : BazelTarget} (hp : ¬ c!":" <+: t.package.project) (s : Str) :
    t.toString ≠ ':' :: s := by
  intro h
  unfold BazelTarget.toString BazelPackage.toString at h
  cases hpr : t.package.project with
  | nil =>
    rw [hpr] at h
    split at h
    · split at h <;> simp at h
    · simp at h
  | cons c cs =>
    have : c = ':' := by
      rw [hpr] at h
      split at h
      · split at h
        · injection h
        · simp at h; exact h.1
      · simp at h; exact h.1
    subst this
    exact hp ⟨cs, by rw [hpr]; rfl⟩

/-- **C58**, for rules whose headers are all in `hdrs` and without directories to strip or to add,
that are not made from protocol buffers and no alias, and if all included headers are provided
under the very path of the include: they are not told to depend on themselves. -/
theorem C58_not_itself_partial (files : Files) (env : Env) (pattern : BazelPattern) (edits : List Edit)
    (hs : ∀ f ∈ files, Searchable f.2) (hproj : ∀ f ∈ files, ¬ c!":" <+: f.1.project)
    (hc : createDependencyEdits env pattern files = some edits) (target : BazelTarget)
    (hlib : ∀ r ast r', Rule files target.package r target → (target.package, ast) ∈ files →
      r' ∈ rulesOf [c!"cc_library", c!"grpc_cc_library"] ast →
      target.package.qualifiedTarget r'.name = some target →
      PlainLibrary target.package (sourcesOf r) r')
    (halias : ∀ t, ¬ Alias files t target)
    (hproto : ∀ ast grpc p, (target.package, ast) ∈ files → (p, target) ∉ protoRules target.package ast grpc)
    (hexact : ∀ r inc, Rule files target.package r target → Needs env target.package target r inc →
      ∃ t, Provides files inc t)
    (e : Edit) (he : e ∈ edits) (hop : e.op = .add) (ht : e.target = target) :
    e.after ≠ target.toStringRelativeTo target.package := by
  subst ht
  obtain ⟨pkg, r, t, h1, _, _, h3, ⟨inc, found, h4, h5, h6⟩, _, _, _, _⟩ :=
    C28_add_partial files env pattern edits hs hc e he hop
  intro hself
  have hpkg : e.target.package = pkg := by
    obtain ⟨_, _, _, hq⟩ := h1; exact qualifiedTarget_package hq
  subst hpkg
  have htt : t = e.target := by
    rw [h3] at hself
    unfold BazelTarget.toStringRelativeTo at hself
    by_cases hp : e.target.package = t.package
    · simp only [hp, ne_eq, not_true_eq_false, if_false] at hself
      injection hself with _ hself
      obtain ⟨tp, tn⟩ := t
      simp only at hp hself
      subst hp hself
      rfl
    · rw [if_pos hp] at hself
      simp only [ne_eq, not_true_eq_false, if_false] at hself
      obtain ⟨f, hf, hpk⟩ := provides_package h6
      exact absurd hself (toString_head (by rw [hpk]; exact hproj f hf) _)
  subst htt
  obtain ⟨t', ht'⟩ := hexact r inc h1 h4
  have hfound : found = inc := by
    rcases h5 with ⟨_, h | ⟨h, _⟩⟩ | ⟨h, _⟩
    · exact h
    · exact absurd ht' (h t')
    · exact absurd ⟨⟨t', ht'⟩, .inl rfl⟩ (h inc)
  subst hfound
  obtain ⟨h, hsrc, hh⟩ := plain_provides rfl (fun ast r' a b c => hlib r ast r' h1 a b c) halias hproto h6
  obtain ⟨n1, n2, _⟩ := h4.2 h hsrc
  rcases hh with ⟨hh, _⟩ | hh
  · exact n1 hh
  · exact n2 hh

/-! ## C29: visibility -/

/-- **C29**: what is taken for visible, see `Visible`. -/
theorem C29_exact (files : Files) (hs : ∀ f ∈ files, Searchable f.2) (target dep : BazelTarget) :
    ∃ gen, Generator.create files = some gen ∧
      ∃ see, canSee gen target dep = some see ∧ (see = true ↔ Visible files target dep) := by
  obtain ⟨gen, hg, hm⟩ := create_made hs
  obtain ⟨see, h⟩ := canSee_spec hm target dep
  exact ⟨gen, hg, see, h⟩

/-- The claim of C29. -/
def C29_statement : Prop :=
  ∀ (files : Files) (gen : Generator) (target dep : BazelTarget) (r : Result),
    (∀ f ∈ files, Searchable f.2) → Generator.create files = some gen → Library files dep r →
    (canSee gen target dep = some true ↔
      target.package = dep.package ∨ ∃ l, r.visibility = some l ∧ Granted dep.package l.2 target)

/-- A library without visibility is considered visible by everyone. -/
theorem C29_counterexample : ¬ C29_statement := by
  intro h
  have hs := projectOf_searchable (text := c!"cc_library(name=\"a\")") (by decide +kernel)
  obtain ⟨gen, hg, hm⟩ := create_made hs
  have hlib : ((libraries (projectOf c!"cc_library(name=\"a\")")).find? (·.1 = local! c!"a")).map
      (·.2.visibility) = some none := by decide +kernel
  rw [Option.map_eq_some_iff] at hlib
  obtain ⟨e, he, hv⟩ := hlib
  have hl : Library (projectOf c!"cc_library(name=\"a\")") (local! c!"a") e.2 :=
    library_iff.2 (by rw [he]; rfl)
  have hsee : (Generator.create (projectOf c!"cc_library(name=\"a\")")).bind
      (canSee · ⟨⟨[], c!"other"⟩, c!"l"⟩ (local! c!"a")) = some true := by decide +kernel
  rw [hg, Option.bind_some] at hsee
  rcases (h _ gen ⟨⟨[], c!"other"⟩, c!"l"⟩ (local! c!"a") e.2 hs hg hl).1 hsee with h | ⟨l, h, _⟩
  · exact absurd h (by decide)
  · rw [hv] at h; cases h

/-- The entries of the documented forms mean what is documented. -/
theorem grants_parse {package : BazelPackage} {s : Str} {meaning : BazelTarget → Prop}
    (h : Grants package s meaning) : ∃ vis, BazelPattern.parseVisibility globCompile s package = some vis ∧
      ∀ t, vis.matchTarget t = true ↔ meaning t := by
  have hbelow : ∀ (project path : Str) (p : BazelPackage), AtOrBelow project path p ↔
      (path = [] ∨ p.path = path ∨ path ++ c!"/" <+: p.path) ∧ p.project = project := by
    intro project path p
    unfold AtOrBelow
    constructor
    · rintro ⟨h1, h2 | h2 | ⟨rest, h2⟩⟩
      · exact ⟨.inl h2, h1⟩
      · exact ⟨.inr (.inl h2), h1⟩
      · exact ⟨.inr (.inr ⟨rest, by rw [h2]; simp⟩), h1⟩
    · rintro ⟨h2 | h2 | ⟨rest, h2⟩, h1⟩
      · exact ⟨h1, .inl h2⟩
      · exact ⟨h1, .inr (.inl h2)⟩
      · exact ⟨h1, .inr (.inr ⟨rest, by rw [← h2]; simp⟩)⟩
  cases h with
  | everyone =>
    obtain ⟨vis, h1, h2⟩ := C07_public globCompile package
    exact ⟨vis, h1, fun t => by simp [h2]⟩
  | nobody => exact C07_private globCompile package
  | @package p hp =>
    obtain ⟨vis, h1, h2⟩ := C07_pkg globCompile p hp package
    refine ⟨vis, h1, fun t => ?_⟩
    rw [h2]
    obtain ⟨⟨a, b⟩, c⟩ := t
    simp only [BazelPackage.mk.injEq, effectiveProject]
    exact And.comm
  | @below p hp =>
    obtain ⟨vis, h1, h2⟩ := C07_subpackages globCompile p hp package
    refine ⟨vis, h1, fun t => ?_⟩
    rw [h2, hbelow]
    rfl
  | here => exact (C07_relative globCompile package).1
  | belowHere =>
    obtain ⟨vis, h1, h2⟩ := (C07_relative globCompile package).2
    refine ⟨vis, h1, fun t => ?_⟩
    rw [h2, hbelow]
  | group g1 g2 g3 =>
    obtain ⟨vis, h1, h2⟩ := C07_package_group_is_public globCompile s package g1
      (by rw [← Bool.not_eq_true, endsWith_iff]; exact g2) (by rw [← Bool.not_eq_true, endsWith_iff]; exact g3)
    exact ⟨vis, h1, fun t => by simp [h2]⟩

/-- **C29**, for libraries without deprecation, not called `protobuf_headers`, and with a list of
visibility that has an entry, all of the documented forms: visible iff in the same package or if
some entry says so. -/
theorem C29_documented_partial (files : Files) (hs : ∀ f ∈ files, Searchable f.2)
    (target dep : BazelTarget) (r : Result) (hl : Library files dep r) (hdep : r.deprecation = [])
    (hname : dep.name ≠ c!"protobuf_headers") (l : ListRef) (hv : r.visibility = some l) (hne : l.2 ≠ [])
    (hdoc : ∀ e ∈ l.2, ∃ s meaning, text e = some s ∧ Grants dep.package s meaning) :
    ∃ gen, Generator.create files = some gen ∧
      ∃ see, canSee gen target dep = some see ∧
        (see = true ↔ target.package = dep.package ∨
          ∃ e ∈ l.2, ∃ s meaning, text e = some s ∧ Grants dep.package s meaning ∧ meaning target) := by
  obtain ⟨gen, hg, see, h1, h2⟩ := C29_exact files hs target dep
  refine ⟨gen, hg, see, h1, ?_⟩
  rw [h2]
  have hgrant : Granted dep.package l.2 target ↔
      ∃ e ∈ l.2, ∃ s meaning, text e = some s ∧ Grants dep.package s meaning ∧ meaning target := by
    constructor
    · rintro ⟨e, he, s, hs, vis, hp, hm⟩
      obtain ⟨s', meaning, hs', hg⟩ := hdoc e he
      rw [hs] at hs'; cases hs'
      obtain ⟨vis', h3, h4⟩ := grants_parse hg
      rw [hp] at h3; cases h3
      exact ⟨e, he, s, meaning, hs, hg, (h4 target).1 hm⟩
    · rintro ⟨e, he, s, meaning, hs, hg, hm⟩
      obtain ⟨vis, h3, h4⟩ := grants_parse hg
      exact ⟨e, he, s, hs, vis, h3, (h4 target).2 hm⟩
  have hund : Understood dep.package l.2 := by
    obtain ⟨e, he⟩ := List.exists_mem_of_ne_nil _ hne
    obtain ⟨s, meaning, hs, hg⟩ := hdoc e he
    obtain ⟨vis, h3, _⟩ := grants_parse hg
    exact ⟨e, he, s, hs, vis, h3⟩
  rw [← hgrant]
  constructor
  · intro h
    rcases (h r hl).2 with h | ⟨_, h⟩
    · exact .inl h
    · exact .inr ((h l hv).resolve_left (fun hc => hc hund))
  · intro h r' hr'
    rw [library_unique hr' hl]
    refine ⟨hdep, ?_⟩
    rcases h with h | h
    · exact .inl h
    · refine .inr ⟨hname, fun l' hl' => ?_⟩
      rw [hv] at hl'; cases hl'
      exact .inr h

/-- Whether a library with this visibility is seen from another package. -/
def seenFrom (visibility path : Str) : Option Bool :=
  (Generator.create (projectOf (c!"cc_library(name=\"a\",visibility=" ++ visibility ++ c!")"))).bind
    (canSee · ⟨⟨[], path⟩, c!"l"⟩ (local! c!"a"))

example : seenFrom c!"[\"//visibility:private\"]" c!"p" = some true := by decide +kernel
example : seenFrom c!"[\"//visibility:private\"]" c!"p/q" = some false := by decide +kernel
example : seenFrom c!"[\":__subpackages__\"]" c!"p/q" = some true := by decide +kernel
example : seenFrom c!"[\"//q:__pkg__\",\"//r:__subpackages__\"]" c!"r/s" = some true := by decide +kernel
example : seenFrom c!"[\"//q:__pkg__\",\"//r:__subpackages__\"]" c!"q/s" = some false := by decide +kernel
example : seenFrom c!"[\"//q:friends\"]" c!"s" = some true := by decide +kernel
/-- An empty list means private in Bazel, but not here. -/
example : seenFrom c!"[]" c!"q" = some true := by decide +kernel

end Props
end Bant
