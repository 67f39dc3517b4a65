import Verif.Lemmas.Evaluated
import Verif.Props.CommandSteps

/-! What `-e` adds (C135). -/
namespace Bant
namespace Props
open Commands hiding Result
open CommandSpec Cli Query Rules Headers GraphSpec EvalSpec StableSpec RulesSpec Table

/-- **C135**: if variables and operators are evaluated, then rules stay, in their order, with their kind and name;
values of attributes that were known stay, and so do elements of lists. -/
theorem C135_rules {glob : Elab.GlobFn} {t u : Node} (h : Elab.elabFile glob t = some u) (hu : Usual t) :
    Within Adds (rulesOf [] t) (rulesOf [] u) := rules_within h hu

theorem adds_refl (r : Result) : Adds r r :=
  ⟨rfl, rfl, fun h => ⟨h, rfl⟩, fun _ _ => ⟨.inr rfl, fun _ => rfl⟩, fun _ _ => List.Sublist.refl _⟩

theorem adds_actual {r r' : Result} (h : Adds r r') : r.actual = [] ∨ r'.actual = r.actual :=
  (h.texts (c!"actual", Result.actual) (by simp)).1

theorem adds_list {r r' : Result} (h : Adds r r') {f : Result → Option ListRef}
    (hf : f ∈ [Result.srcs, Result.hdrs, Result.textualHdrs, Result.publicHdrs, Result.deps, Result.outs, Result.includes])
    {s : Str} (hs : s ∈ stringsOf (f r)) : s ∈ stringsOf (f r') := (h.lists f hf).subset hs

theorem depsOf_adds {r r' : Result} (h : Adds r r') (pkg : BazelPackage) : (depsOf pkg r).Sublist (depsOf pkg r') := by
  unfold depsOf
  refine List.Sublist.filterMap _ (List.Sublist.append (h.lists _ (by simp)) ?_)
  rcases adds_actual h with e | e
  · rw [e]; simp
  · rw [e]; exact List.Sublist.refl _

/-- A rule has a counterpart among those of the same kinds. -/
theorem within_mem {ast ast' : Node} (h : Within Adds (rulesOf [] ast) (rulesOf [] ast')) {kinds : List Str} {r : Result}
    (hr : r ∈ rulesOf kinds ast) : ∃ r' ∈ rulesOf kinds ast', Adds r r' := by
  obtain ⟨cs, h1, h2⟩ := h
  obtain ⟨r', h3, h4⟩ := Stable.pairs_left h2 (Stable.rulesOf_sub hr)
  refine ⟨r', ?_, h4⟩
  by_cases hk : kinds = []
  · rw [hk]; exact h1.subset h3
  · rw [Stable.rulesOf_filter hk] at hr ⊢
    have := (List.mem_filter.1 hr).2
    exact List.mem_filter.2 ⟨h1.subset h3, by rw [h4.rule]; exact this⟩

/-- Files before and after evaluation. -/
structure Improved (m : Machine) (files files' : Loaded) : Prop where
  there : ∀ pkg file, (pkg, file) ∈ files → ∃ file', (pkg, file') ∈ files' ∧ file'.name = file.name ∧
    Elab.elabFile (m.glob pkg) file.ast = some file'.ast
  other : ∀ pkg, pkg ∈ files'.map (·.1) ↔ pkg ∈ files.map (·.1)

/-- With `-e`, the same files are opened, and evaluated. -/
theorem C135_files {m : Machine} (hh : Healthy m) {flags : Flags} {cmd : Command} {pattern : BazelPattern}
    {ws : Workspace.Map} {found : List Str} {files : Loaded} (hs : Starts m flags cmd pattern ws found files)
    (hneed : needsProject cmd pattern = true) (he : evaluates flags cmd = false) :
    ∃ files', Starts m (evaluated flags) cmd pattern ws found files' ∧ Improved m files files' := by
  obtain ⟨files', h1, _⟩ := C85_opened hh hs.workspace hs.roots (evaluated flags) cmd pattern hs.opened.files hneed
  have hev : evaluates (evaluated flags) cmd = true := rfl
  have hthere : ∀ pkg file, (pkg, file) ∈ files → ∃ file', (pkg, file') ∈ files' ∧ file'.name = file.name ∧
      Elab.elabFile (m.glob pkg) file.ast = some file'.ast := by
    intro pkg file hm
    obtain ⟨name, content, h2, ast, st, h3, h4, h5, h6⟩ := (hs.opened.each pkg file).1 hm
    obtain ⟨h7, h8, _⟩ := firstReadable_mem h2
    obtain ⟨ast', st', h9, _, h10⟩ := hh.usable name content (found_build hs.opened.files name h7) h8
    rw [h3] at h9
    cases h9
    obtain ⟨out, h11, _⟩ := h10 (m.glob pkg)
    simp only [he, Bool.false_eq_true, if_false] at h6
    refine ⟨⟨file.name, out, file.hasErrors⟩, (h1.opened.each _ _).2 ⟨name, content, h2, ast, st, h3, h4, h5, ?_⟩, rfl, ?_⟩
    · rw [hev]; exact h11
    · rw [h6]; exact h11
  refine ⟨files', h1, hthere, fun pkg => ?_⟩
  simp only [List.mem_map]
  constructor
  · rintro ⟨⟨_, file'⟩, hm, rfl⟩
    obtain ⟨name, content, h2, ast, st, h3, h4, h5, _⟩ := (h1.opened.each _ _).1 hm
    exact ⟨(_, ⟨file'.name, ast, file'.hasErrors⟩), (hs.opened.each _ _).2 ⟨name, content, h2, ast, st, h3, h4, h5, by
      simp only [he, Bool.false_eq_true, if_false]⟩, rfl⟩
  · rintro ⟨⟨_, file⟩, hm, rfl⟩
    obtain ⟨file', h2, _⟩ := hthere _ _ hm
    exact ⟨(_, file'), h2, rfl⟩

/-! ### Targets that are reached -/

section
variable {m : Machine} {ws : Workspace.Map} {pattern : BazelPattern} {files files' : Loaded}

theorem starts_nodup {flags : Flags} {cmd : Command} {found : List Str}
    (hs : Starts m flags cmd pattern ws found files) : (files.map (·.1)).Nodup :=
  Ascending.nodup hs.opened.order

/-- Files with rules as usual, in which no two have the same name, after evaluation. -/
def UsualFiles (m : Machine) (files : Loaded) : Prop :=
  ∀ f ∈ files, Usual f.2.ast ∧ ∀ out, Elab.elabFile (m.glob f.1) f.2.ast = some out → Distinct out

theorem improved_rules (hi : Improved m files files') (hu : UsualFiles m files) {pkg : BazelPackage} {file : File}
    (hm : (pkg, file) ∈ files) : ∃ file', (pkg, file') ∈ files' ∧ file'.name = file.name ∧
      Within Adds (rulesOf [] file.ast) (rulesOf [] file'.ast) ∧ Distinct file'.ast := by
  obtain ⟨file', h1, h2, h3⟩ := hi.there pkg file hm
  exact ⟨file', h1, h2, C135_rules h3 (hu _ hm).1, (hu _ hm).2 _ h3⟩

theorem root_improved (hi : Improved m files files') (hu : UsualFiles m files) {t : BazelTarget}
    (h : Root pattern (trees files) t) : Root pattern (trees files') t := by
  obtain ⟨f, hf, r, hr, h1, h2⟩ := h
  obtain ⟨file, h3, h4⟩ := mem_trees.1 hf
  obtain ⟨file', h5, _, h6, _⟩ := improved_rules hi hu h3
  rw [← h4] at hr
  obtain ⟨r', h7, h8⟩ := within_mem h6 hr
  exact ⟨(f.1, file'.ast), mem_trees.2 ⟨file', h5, rfl⟩, r', h7, by rw [h8.name]; exact h1, h2⟩

theorem distinct_first {ast : Node} (hd : Distinct ast) {pkg : BazelPackage} {t : BazelTarget} {r : Result}
    (hr : r ∈ rulesOf [] ast) (ht : pkg.qualifiedTarget r.name = some t) :
    ∃ before after, rulesOf [] ast = before ++ r :: after ∧ ∀ r' ∈ before, pkg.qualifiedTarget r'.name ≠ some t := by
  obtain ⟨before, after, e⟩ := List.append_of_mem hr
  refine ⟨before, after, e, fun r' hr' h => ?_⟩
  unfold Distinct at hd
  rw [e, List.pairwise_append] at hd
  exact hd.2.2 r' hr' r (by simp) pkg t h ht

theorem defines_improved {w : DepGraph.World} (hn' : (files'.map (·.1)).Nodup)
    (hi : Improved m files files') (hu : UsualFiles m files) {t : BazelTarget} {r : Result}
    (h : Defines w (trees files) t r) : ∃ r', Defines w (trees files') t r' ∧ Adds r r' := by
  obtain ⟨ast, before, after, h1, h2, h3, h4⟩ := h
  unfold GraphSpec.treeOf at h1
  cases hl : lookup (trees files) t.package with
  | none =>
    have hl' : lookup (trees files') t.package = none := by
      rw [lookup_none, trees_keys] at hl ⊢
      exact fun hm => hl ((hi.other _).1 hm)
    rw [hl] at h1
    refine ⟨r, ⟨ast, before, after, ?_, h2, h3, h4⟩, adds_refl r⟩
    unfold GraphSpec.treeOf
    rw [hl']
    exact h1
  | some ast0 =>
    rw [hl] at h1
    cases h1
    obtain ⟨file, h5, h6⟩ := mem_trees.1 (lookup_mem hl)
    obtain ⟨file', h7, _, h8, h9⟩ := improved_rules hi hu h5
    simp only at h5 h6 h7
    obtain ⟨r', h10, h11⟩ := within_mem h8 (kinds := []) (r := r) (by rw [h6, h2]; simp)
    obtain ⟨b, a, h12, h13⟩ := distinct_first h9 h10 (pkg := t.package) (t := t) (by rw [h11.name]; exact h3)
    refine ⟨r', ⟨file'.ast, b, a, ?_, h12, by rw [h11.name]; exact h3, h13⟩, h11⟩
    unfold GraphSpec.treeOf
    have : lookup (trees files') t.package = some file'.ast :=
      (mem_lookup (by rw [trees_keys]; exact hn')).1 (mem_trees.2 ⟨file', h7, rfl⟩)
    rw [this]

variable (hn' : (files'.map (·.1)).Nodup) (hi : Improved m files files')
  (hu : UsualFiles m files)
include hn' hi hu

theorem edge_improved {w : DepGraph.World} {t u : BazelTarget} (h : Edge w (trees files) t u) :
    Edge w (trees files') t u := by
  obtain ⟨r, h1, h2⟩ := h
  obtain ⟨r', h3, h4⟩ := defines_improved hn' hi hu h1
  exact ⟨r', h3, (depsOf_adds h4 _).subset h2⟩

theorem reached_improved {n : Nat} {t : BazelTarget} (h : Reached m ws pattern n files t) :
    Reached m ws pattern n files' t := by
  obtain ⟨k, h1, h2⟩ := h
  refine ⟨k, h1, ?_⟩
  clear h1
  induction h2 with
  | root h => exact .root (root_improved hi hu h)
  | step _ h ih => exact .step ih (edge_improved hn' hi hu h)

theorem grown_improved {n : Nat} {now now' : Files} (h : Grown m ws pattern n files now)
    (h' : Grown m ws pattern n files' now') {pkg : BazelPackage} {ast : Node} (hm : (pkg, ast) ∈ now) :
    ((pkg, ast) ∈ now' ∧ pkg ∉ files.map (·.1)) ∨ ∃ file file', (pkg, file) ∈ files ∧ file.ast = ast ∧
      (pkg, file') ∈ files' ∧ (pkg, file'.ast) ∈ now' ∧ Elab.elabFile (m.glob pkg) ast = some file'.ast := by
  rcases (h.each pkg ast).1 hm with h1 | ⟨h1, h2, t, h3, h4⟩
  · obtain ⟨file, h2, h3⟩ := mem_trees.1 h1
    obtain ⟨file', h4, _, h5⟩ := hi.there _ _ h2
    simp only at h2 h3 h4 h5
    exact .inr ⟨file, file', h2, h3, h4, (h'.each _ _).2 (.inl (mem_trees.2 ⟨file', h4, rfl⟩)), by rw [← h3]; exact h5⟩
  · exact .inl ⟨(h'.each _ _).2 (.inr ⟨fun hm => h1 ((hi.other _).1 hm), h2, t,
      reached_improved hn' hi hu h3, h4⟩), h1⟩

theorem grown_rules {n : Nat} {now now' : Files} (h : Grown m ws pattern n files now)
    (h' : Grown m ws pattern n files' now') {pkg : BazelPackage} {ast : Node} (hm : (pkg, ast) ∈ now) :
    ∃ ast', (pkg, ast') ∈ now' ∧ Within Adds (rulesOf [] ast) (rulesOf [] ast') := by
  rcases grown_improved hn' hi hu h h' hm with ⟨h1, _⟩ | ⟨file, file', h1, h2, h3, h4, h5⟩
  · exact ⟨ast, h1, _, List.Sublist.refl _, by
      generalize rulesOf [] ast = l
      induction l with
      | nil => exact .nil
      | cons r l ih => exact .cons (adds_refl r) ih⟩
  · exact ⟨_, h4, C135_rules h5 (h2 ▸ (hu _ h1).1)⟩

end

/-! ### Commands -/

section
variable {m : Machine} (hh : Healthy m) {flags : Flags} {pattern : BazelPattern} {ws : Workspace.Map} {found : List Str}
  {files : Loaded} (he : flags.elaborate = false) (hu : UsualFiles m files)
include hh he hu

/-- **C135** for `depends-on`: targets and dependencies are added. -/
theorem C135_depends_on_partial (hs : Starts m flags .dependsOn pattern ws found files) (hd : 0 ≤ flags.depth) :
    ∃ es es', Prints m flags .dependsOn pattern (note found) [c!"library", c!"depends-on"] (grouped es) ∧
      Prints m (evaluated flags) .dependsOn pattern (note found) [c!"library", c!"depends-on"] (grouped es') ∧
      ∀ t ds, (t, ds) ∈ es → ∃ ds', (t, ds') ∈ es' ∧ ds.Sublist ds' := by
  obtain ⟨files', hs', hi⟩ := C135_files hh hs (by simp [needsProject]) (by simp [evaluates, he])
  obtain ⟨es, h1, _, h2⟩ := C82_depends_on hh hs hd
  obtain ⟨es', h3, _, h4⟩ := C82_depends_on hh hs' hd
  refine ⟨es, es', h1, h3, fun t ds hm => ?_⟩
  obtain ⟨h5, r, h6, rfl⟩ := (h2 t ds).1 hm
  obtain ⟨r', h7, h8⟩ := defines_improved (starts_nodup hs') hi hu h6
  exact ⟨_, (h4 t _).2 ⟨reached_improved (starts_nodup hs') hi hu h5, r', h7, rfl⟩, depsOf_adds h8 _⟩

/-- **C135** for `has-dependents`. -/
theorem C135_has_dependents_partial (hs : Starts m flags .hasDependents pattern ws found files) :
    ∃ es es', Prints m flags .hasDependents pattern (note found) [c!"library", c!"has-dependent"] (grouped es) ∧
      Prints m (evaluated flags) .hasDependents pattern (note found) [c!"library", c!"has-dependent"] (grouped es') ∧
      ∀ t bs, (t, bs) ∈ es → ∃ bs', (t, bs') ∈ es' ∧ ∀ b ∈ bs, b ∈ bs' := by
  obtain ⟨files', hs', hi⟩ := C135_files hh hs (by simp [needsProject]) (by simp [evaluates, he])
  obtain ⟨es, h1, _, h2, h3⟩ := C83_has_dependents hh hs
  obtain ⟨es', h4, _, h5, h6⟩ := C83_has_dependents hh hs'
  have hr := @reached_improved m ws .always files files' (starts_nodup hs') hi hu
  have hed := @edge_improved m files files' (starts_nodup hs') hi hu
  refine ⟨es, es', h1, h4, fun t bs hm => ?_⟩
  obtain ⟨h7, b, h8, h9⟩ := (h2 t).1 (List.mem_map.2 ⟨_, hm, rfl⟩)
  obtain ⟨⟨_, bs'⟩, h10, rfl⟩ := List.mem_map.1 ((h5 t).2 ⟨h7, b, hr h8, hed h9⟩)
  refine ⟨bs', h10, fun c hc => ?_⟩
  obtain ⟨h11, h12⟩ := (h3 _ bs hm c).1.1 hc
  exact (h6 _ bs' h10 c).1.2 ⟨hr h11, hed h12⟩

/-- **C135** for `list-packages`. -/
theorem C135_list_packages_partial (hs : Starts m flags .listPackages pattern ws found files) (hd : 0 ≤ flags.depth) :
    ∃ rows rows' : List (BazelPackage × Str),
      Prints m flags .listPackages pattern (note found) [c!"bazel-file", c!"package"]
        (rows.map fun e => .row [e.2, e.1.toString]) ∧
      Prints m (evaluated flags) .listPackages pattern (note found) [c!"bazel-file", c!"package"]
        (rows'.map fun e => .row [e.2, e.1.toString]) ∧ ∀ e ∈ rows, e ∈ rows' := by
  obtain ⟨files', hs', hi⟩ := C135_files hh hs (by simp [needsProject]) (by simp [evaluates, he])
  obtain ⟨es, h1, _, h2⟩ := C85_list_packages_partial hh hs hd
  obtain ⟨es', h3, _, h4⟩ := C85_list_packages_partial hh hs' hd
  refine ⟨es, es', h1, h3, fun e hm => (h4 e.1 e.2).2 ?_⟩
  rcases (h2 e.1 e.2).1 hm with ⟨file, h5, h6⟩ | ⟨h5, ⟨t, h6, h7⟩, h8⟩
  · obtain ⟨file', h7, h8, _⟩ := hi.there _ _ h5
    exact .inl ⟨file', h7, h8.trans h6⟩
  · exact .inr ⟨fun hc => h5 ((hi.other _).1 hc),
      ⟨t, reached_improved (starts_nodup hs') hi hu h6, h7⟩, h8⟩

/-- **C135** for `list-targets`: a target that is listed is listed with `-e`, as of the same kind. -/
theorem C135_list_targets_partial (hs : Starts m flags .listTargets pattern ws found files) (hd : 0 ≤ flags.depth) :
    ∃ rows rows' : List (Str × Str × BazelTarget),
      Prints m flags .listTargets pattern (note found) [c!"file-location", c!"rule", c!"target"]
        (rows.map fun e => .row [e.1, e.2.1, e.2.2.toString]) ∧
      Prints m (evaluated flags) .listTargets pattern (note found) [c!"file-location", c!"rule", c!"target"]
        (rows'.map fun e => .row [e.1, e.2.1, e.2.2.toString]) ∧
      ∀ e ∈ rows, ∃ e' ∈ rows', e'.2 = e.2 := by
  obtain ⟨files', hs', hi⟩ := C135_files hh hs (by simp [needsProject]) (by simp [evaluates, he])
  obtain ⟨now, h1, h2⟩ := C86_list_targets_partial hh hs hd
  obtain ⟨now', h3, h4⟩ := C86_list_targets_partial hh hs' hd
  let rows (now : Files) : List (Str × Str × BazelTarget) := now.flatMap fun f =>
    ((targetsOf f).filter fun e => shown flags pattern e.2.2).map fun e => (m.nameLoc f.1 e.1, e.2.1, e.2.2)
  have hrows : ∀ now : Files, ((rows now).map fun e => Op.row [e.1, e.2.1, e.2.2.toString]) =
      now.flatMap fun f => ((targetsOf f).filter fun e => shown flags pattern e.2.2).map fun e =>
        .row [m.nameLoc f.1 e.1, e.2.1, e.2.2.toString] := by
    intro now
    simp only [rows, List.map_flatMap, List.map_map]
    rfl
  refine ⟨rows now, rows now', by rw [hrows]; exact h2, by rw [hrows]; exact h4, fun e hm => ?_⟩
  obtain ⟨f, hf, hm⟩ := List.mem_flatMap.1 hm
  obtain ⟨x, hx, rfl⟩ := List.mem_map.1 hm
  obtain ⟨hx, hsh⟩ := List.mem_filter.1 hx
  obtain ⟨y, hy, rfl⟩ := List.mem_map.1 hx
  obtain ⟨hy, hc⟩ := List.mem_filter.1 hy
  obtain ⟨ast', h5, h6⟩ := grown_rules (starts_nodup hs') hi hu h1 h3 (show (f.1, f.2) ∈ now from hf)
  obtain ⟨r', h7, h8⟩ := within_mem h6 (kinds := []) (List.mem_of_getElem? (List.mem_zipIdx_iff_getElem?.1 hy))
  obtain ⟨i, h9⟩ := List.getElem?_of_mem h7
  refine ⟨(m.nameLoc f.1 i, r'.rule, ⟨f.1, r'.name⟩), List.mem_flatMap.2 ⟨(f.1, ast'), h5, List.mem_map.2
    ⟨(i, r'.rule, ⟨f.1, r'.name⟩), List.mem_filter.2 ⟨List.mem_map.2 ⟨(r', i), List.mem_filter.2
      ⟨List.mem_zipIdx_iff_getElem?.2 h9, ?_⟩, rfl⟩, ?_⟩, rfl⟩⟩, ?_⟩
  · simp only [h8.name]; exact hc
  · simp only [h8.name]; exact hsh
  · simp only [h8.name, h8.rule]

/-- **C135** for `aliased-by`. If it is not known what a rule is an alias for, then it is not printed. -/
theorem C135_aliased_by_partial (hs : Starts m flags .aliasedBy pattern ws found files) :
    ∃ es es', Prints m flags .aliasedBy pattern (note found) [c!"actual", c!"aliased-by"] (grouped es) ∧
      Prints m (evaluated flags) .aliasedBy pattern (note found) [c!"actual", c!"aliased-by"] (grouped es') ∧
      ∀ t as, (t, as) ∈ es → ∃ as', (t, as') ∈ es' ∧ ∀ a ∈ as, a ∈ as' := by
  obtain ⟨files', hs', hi⟩ := C135_files hh hs (by simp [needsProject]) (by simp [evaluates, he])
  obtain ⟨es, h1, _, h2⟩ := C89_aliased_by_partial hh hs
  obtain ⟨es', h3, _, h4⟩ := C89_aliased_by_partial hh hs'
  refine ⟨es, es', h1, h3, fun t as hm => ?_⟩
  obtain ⟨rfl, h5, h6⟩ := (h2 t as).1 hm
  have hsub : ∀ a ∈ aliasesFor (trees files) t, a ∈ aliasesFor (trees files') t := by
    intro a ha
    obtain ⟨f, hf, ha⟩ := List.mem_flatMap.1 ha
    obtain ⟨r, hr, ha⟩ := List.mem_filterMap.1 ha
    split at ha
    · next hp =>
      obtain ⟨file, h7, h8⟩ := mem_trees.1 hf
      obtain ⟨file', h9, _, h10, _⟩ := improved_rules hi hu h7
      rw [← h8] at hr
      obtain ⟨r', h11, h12⟩ := within_mem h10 hr
      refine List.mem_flatMap.2 ⟨(f.1, file'.ast), mem_trees.2 ⟨file', h9, rfl⟩, List.mem_filterMap.2 ⟨r', h11, ?_⟩⟩
      obtain ⟨h13, h14⟩ := h12.actual hp.1
      rw [h14, if_pos ⟨h13, hp.2⟩, h12.name]
      exact ha
    · cases ha
  refine ⟨_, (h4 t _).2 ⟨rfl, fun h => ?_, h6⟩, hsub⟩
  obtain ⟨a, ha⟩ := List.exists_mem_of_ne_nil _ h5
  have := hsub a ha
  rw [h] at this
  cases this

/-! ### Headers and generated files -/

omit hh he hu in
theorem includedAs_adds {pkg : BazelPackage} {r r' : Result} (h : Adds r r') (h1 : r'.includePrefix = r.includePrefix)
    (h2 : r'.stripIncludePrefix = r.stripIncludePrefix) {x p : Str} (hi : HeaderSpec.IncludedAs pkg r x p) :
    HeaderSpec.IncludedAs pkg r' x p := by
  cases hi with
  | prescribed h3 => rw [← h1] at h3 ⊢; exact .prescribed h3
  | short h3 h4 h5 h6 => exact .short (h1 ▸ h3) (h2 ▸ h4) h5 h6
  | long h3 h4 => exact .long (h1 ▸ h3) (h2 ▸ h4)
  | relative h3 h4 h5 h6 => exact .relative (h1 ▸ h3) (adds_list h (by simp) h4) h5 h6

omit hh he in
/-- The headers that are provided by rules of files, before and after evaluation. -/
theorem provides_improved {n : Nat} {files' : Loaded} (hn' : (files'.map (·.1)).Nodup)
    (hi : Improved m files files') (hp : ∀ f ∈ files, PlainHeaders (m.glob f.1) f.1 f.2.ast) {now now' : Files}
    (h : Grown m ws pattern n files now) (h' : Grown m ws pattern n files' now') {p : Str} {t : BazelTarget}
    (ht : HeaderSpec.Provides now p t) : HeaderSpec.Provides now' p t := by
  have halias : ∀ t a : BazelTarget, HeaderSpec.Alias now t a → HeaderSpec.Alias now' t a := by
    rintro t a ⟨pkg, ast, r, h1, h2, h3, h4, h4'⟩
    obtain ⟨ast', h5, h6⟩ := grown_rules hn' hi hu h h' h1
    obtain ⟨r', h7, h8⟩ := within_mem h6 h2
    obtain ⟨h9, h10⟩ := h8.actual h4
    exact ⟨pkg, ast', r', h5, h7, by rw [h8.name]; exact h3, h9, by rw [h10]; exact h4'⟩
  cases ht with
  | @library pkg ast r lib x q _ _ h1 h2 h3 h4 h5 h6 h7 h8 =>
    have h8' : t = lib ∨ HeaderSpec.Alias now' lib t := h8.imp id (halias _ _)
    rcases grown_improved hn' hi hu h h' h1 with ⟨h9, _⟩ | ⟨file, file', h9, h10, h11, h12, h13⟩
    · exact .library h9 h2 h3 h4 h5 h6 h7 h8'
    · have hw := C135_rules h13 (h10 ▸ (hu _ h9).1)
      obtain ⟨r', h14, h15⟩ := within_mem hw h2
      have hpl := hp _ h9
      simp only [h10] at hpl
      obtain ⟨h16, h17⟩ := hpl.prefixes r h2
      refine .library h12 h14 (by rw [h15.name]; exact h3) (h := x) ?_ (fun hx => hpl.other hx.2.1)
        (includedAs_adds h15 ((h15.texts (c!"include_prefix", Result.includePrefix) (by simp)).2 h16)
          ((h15.texts (c!"strip_include_prefix", Result.stripIncludePrefix) (by simp)).2 h17) h6) h7 h8'
      simp only [List.mem_append] at h4 ⊢
      rcases h4 with (h4 | h4) | h4
      · exact .inl (.inl (adds_list h15 (by simp) h4))
      · exact .inl (.inr (adds_list h15 (by simp) h4))
      · exact .inr (adds_list h15 (by simp) h4)
  | @proto pkg ast r proto grpc src stem ext _ h1 h2 h3 h4 h5 h6 h7 =>
    rcases grown_improved hn' hi hu h h' h1 with ⟨h9, _⟩ | ⟨file, file', h9, h10, h11, h12, h13⟩
    · exact .proto h9 h2 h3 h4 h5 h6 h7
    · have hw := C135_rules h13 (h10 ▸ (hu _ h9).1)
      obtain ⟨r', h14, h15⟩ := within_mem hw h2
      have hpl := hp _ h9
      simp only [h10] at hpl
      refine .proto h12 h14 (by rw [h15.name]; exact h3) (grpc := grpc) ?_ (adds_list h15 (by simp) h5) h6 h7
      have hd := hpl.protos _ h13 grpc
      obtain ⟨⟨p0, t0⟩, h16, h17⟩ := Option.map_eq_some_iff.1 h4
      have h18 := List.mem_of_find?_eq_some h16
      have h19 := List.find?_some h16
      simp only [decide_eq_true_eq] at h17 h19
      subst h17 h19
      have h20 : (p0, t0) ∈ HeaderSpec.protoRules pkg file'.ast grpc := by
        unfold HeaderSpec.protoRules at h18 ⊢
        obtain ⟨q, h21, h22⟩ := List.mem_flatMap.1 h18
        obtain ⟨q', h23, h24⟩ := within_mem hw h21
        refine List.mem_flatMap.2 ⟨q', h23, ?_⟩
        rw [h24.name]
        split at h22
        · cases h22
        · next lib hl =>
          obtain ⟨d, h25, h26⟩ := List.mem_filterMap.1 h22
          refine List.mem_filterMap.2 ⟨d, ?_, h26⟩
          cases grpc
          · exact adds_list h24 (f := Result.deps) (by simp) h25
          · exact adds_list h24 (f := Result.srcs) (by simp) h25
      obtain ⟨before, after, h21⟩ := List.append_of_mem h20
      rw [h21] at hd ⊢
      rw [List.find?_append, List.find?_eq_none.2, List.find?_cons_of_pos (by simp)]
      · rfl
      · intro x hx
        simpa using (List.pairwise_append.1 hd).2.2 x hx (p0, t0) (by simp)

/-- **C135** for `lib-headers`, where it is written out how headers are included. -/
theorem C135_lib_headers_partial (hs : Starts m flags .libraryHeaders pattern ws found files) (hd : 0 ≤ flags.depth)
    (hp : ∀ f ∈ files, PlainHeaders (m.glob f.1) f.1 f.2.ast) :
    ∃ rows rows' : List (Str × List BazelTarget),
      Prints m flags .libraryHeaders pattern (note found) [c!"header", c!"providing-rule"]
        (rows.map fun e => .repeated [e.1] (e.2.map BazelTarget.toString)) ∧
      Prints m (evaluated flags) .libraryHeaders pattern (note found) [c!"header", c!"providing-rule"]
        (rows'.map fun e => .repeated [e.1] (e.2.map BazelTarget.toString)) ∧
      ∀ e ∈ rows, ∃ e' ∈ rows', e'.1 = e.1 ∧ ∀ t ∈ e.2, t ∈ e'.2 := by
  obtain ⟨files', hs', hi⟩ := C135_files hh hs (by simp [needsProject]) (by simp [evaluates, he])
  obtain ⟨now, h1, rows, h2, _, _, h3, h4⟩ := C87_lib_headers_partial hh hs hd
  obtain ⟨now', h5, rows', h6, _, _, h7, h8⟩ := C87_lib_headers_partial hh hs' hd
  have hpr : ∀ {p t}, HeaderSpec.Provides now p t → HeaderSpec.Provides now' p t :=
    provides_improved hu (starts_nodup hs') hi hp h1 h5
  refine ⟨rows, rows', h2, h6, fun e hm => ?_⟩
  obtain ⟨t, ht⟩ := (h3 e.1).1 ⟨e.2, hm⟩
  obtain ⟨ts', hts'⟩ := (h7 e.1).2 ⟨t, hpr ht⟩
  refine ⟨_, hts', rfl, fun u hu' => ?_⟩
  obtain ⟨h9, h10⟩ := (h4 e.1 e.2 hm u).1 hu'
  exact (h8 _ _ hts' u).2 ⟨hpr h9, h10⟩

/-- **C135** for `genrule-outputs`, if no file is made by two rules. -/
theorem C135_genrule_outputs_partial (hs : Starts m flags .genruleOutputs pattern ws found files) (hd : 0 ≤ flags.depth)
    (hone : ∀ files' now', Starts m (evaluated flags) .genruleOutputs pattern ws found files' →
      Grown m ws pattern flags.depth.toNat files' now' → ∀ p t t', (p, t) ∈ HeaderSpec.outputs now' →
        (p, t') ∈ HeaderSpec.outputs now' → t = t') :
    ∃ rows rows' : List (Str × BazelTarget),
      Prints m flags .genruleOutputs pattern (note found) [c!"generated-file", c!"providing-rule"]
        (rows.map fun e => .row [e.1, e.2.toString]) ∧
      Prints m (evaluated flags) .genruleOutputs pattern (note found) [c!"generated-file", c!"providing-rule"]
        (rows'.map fun e => .row [e.1, e.2.toString]) ∧ ∀ e ∈ rows, e ∈ rows' := by
  obtain ⟨files', hs', hi⟩ := C135_files hh hs (by simp [needsProject]) (by simp [evaluates, he])
  obtain ⟨now, h1, rows, h2, _, h3⟩ := C88_genrule_outputs hh hs hd
  obtain ⟨now', h4, rows', h5, _, h6⟩ := C88_genrule_outputs hh hs' hd
  refine ⟨rows, rows', h2, h5, fun e hm => (h6 e.1 e.2).2 ?_⟩
  obtain ⟨h7, h8⟩ := (h3 e.1 e.2).1 hm
  refine ⟨?_, h8⟩
  obtain ⟨⟨p0, t0⟩, h9, h10⟩ := Option.map_eq_some_iff.1 h7
  have h11 := List.mem_of_find?_eq_some h9
  have h12 := List.find?_some h9
  simp only [decide_eq_true_eq] at h10 h12
  subst h10 h12
  have h13 : (e.1, e.2) ∈ HeaderSpec.outputs now' := by
    unfold HeaderSpec.outputs at h11 ⊢
    obtain ⟨f, h14, h15⟩ := List.mem_flatMap.1 h11
    obtain ⟨r, h16, h17⟩ := List.mem_flatMap.1 h15
    obtain ⟨ast', h18, h19⟩ := grown_rules (starts_nodup hs') hi hu h1 h4 (show (f.1, f.2) ∈ now from h14)
    obtain ⟨r', h20, h21⟩ := within_mem h19 h16
    refine List.mem_flatMap.2 ⟨(f.1, ast'), h18, List.mem_flatMap.2 ⟨r', h20, ?_⟩⟩
    simp only [h21.name]
    split at h17
    · cases h17
    · next q hq =>
      obtain ⟨o, h22, h23⟩ := List.mem_map.1 h17
      exact List.mem_map.2 ⟨o, adds_list h21 (by simp) h22, h23⟩
  cases hf : (HeaderSpec.outputs now').find? (·.1 = e.1) with
  | none =>
    have := List.find?_eq_none.1 hf _ h13
    simp at this
  | some x =>
    have h14 := List.mem_of_find?_eq_some hf
    have h15 := List.find?_some hf
    simp only [decide_eq_true_eq] at h15
    rw [Option.map_some, hone files' now' hs' h4 e.1 x.2 e.2 (by rw [← h15]; exact h14) h13]

end

/-! ### Examples -/

def keywordsB (args : List Node) : Bool :=
  args.all (fun | .assign (.ident _) _ => true | _ => false) &&
    decide (args.filterMap fun | .assign (.ident k) _ => some k | _ => none).Nodup

theorem keywordsB_sound {args : List Node} (h : keywordsB args = true) : Keywords args := by
  simp only [keywordsB, Bool.and_eq_true, List.all_eq_true, decide_eq_true_eq] at h
  obtain ⟨h1, h2⟩ := h
  refine ⟨fun a ha => ?_, ?_⟩
  · have := h1 a ha
    split at this
    · exact ⟨_, _, rfl⟩
    · cases this
  · unfold List.Nodup at h2
    rw [List.pairwise_filterMap] at h2
    refine h2.imp fun {a b} h k v w e e' => ?_
    subst e e'
    exact h k rfl k rfl rfl

def usualB (ast : Node) : Bool :=
  (summed ast).isEmpty && (rulesOf [] ast).all fun r => r.rule ∉ [c!"glob", c!"select"] && r.rule ∉ bound ast &&
    match r.node with
    | .call _ (.list _ args) => keywordsB args
    | _ => true

theorem usualB_sound {ast : Node} (h : usualB ast = true) : Usual ast := by
  simp only [usualB, Bool.and_eq_true, List.all_eq_true, decide_eq_true_eq, List.isEmpty_iff] at h
  refine ⟨h.1, fun r hr => ⟨(h.2 r hr).1.1, (h.2 r hr).1.2, fun fn ty args e => ?_⟩⟩
  have := (h.2 r hr).2
  rw [e] at this
  exact keywordsB_sound this

def distinctB (ast : Node) : Bool :=
  decide ((rulesOf [] ast).map (·.name)).Nodup && (rulesOf [] ast).all fun r => r.name.head? ≠ some ':'

theorem distinctB_sound {ast : Node} (h : distinctB ast = true) : Distinct ast := by
  simp only [distinctB, Bool.and_eq_true, List.all_eq_true, decide_eq_true_eq] at h
  have hq : ∀ r ∈ rulesOf [] ast, ∀ (pkg : BazelPackage) t, pkg.qualifiedTarget r.name = some t → t.name = r.name := by
    intro r hr pkg t ht
    have := h.2 r hr
    unfold BazelPackage.qualifiedTarget at ht
    split at ht
    · cases ht
    · next c rest e =>
      rw [e] at this
      simp only [List.head?_cons, ne_eq, Option.some.injEq] at this
      simp only [this, if_false] at ht
      rw [if_neg (by rw [e]; simp)] at ht
      cases ht
      rfl
  have hp : (rulesOf [] ast).Pairwise fun a b => a.name ≠ b.name := List.pairwise_map.1 h.1
  refine hp.imp_of_mem fun {a b} ha hb hne pkg t e e' => hne ?_
  rw [← hq a ha pkg t e, ← hq b hb pkg t e']

/-- A library with dependencies and a header that have to be evaluated. -/
def named : List (Str × Str) :=
  [(c!"p/BUILD", c!"D=[\"b\"]\nN=\"b\"\ncc_library(name=\"a\",hdrs=[\"a.h\"],deps=[\":c\",\":\"+N])\ncc_library(name=N,hdrs=[\"x.h\"]+[\"y.h\"])\ncc_library(name=\"c\",deps=D)")]

theorem named_clean : ∀ e ∈ named, cleanText e.2 = true := by decide +kernel

/-- The assumptions hold for it. -/
theorem named_usual : ∃ found files,
    Starts (disk named) (steps 1) .dependsOn (pat c!"//p:a") [] found files ∧ UsualFiles (disk named) files := by
  obtain ⟨found, files, hs, ho⟩ := disk_starts named_clean (by decide +kernel) (steps 1) .dependsOn (pat c!"//p:a")
    (by decide +kernel) rfl
  refine ⟨found, files, hs, ?_⟩
  have : ((opened (disk named) [] (steps 1) .dependsOn (pat c!"//p:a")).map fun r => r.1.all fun f => usualB f.2.ast &&
      ((Elab.elabFile ((disk named).glob f.1) f.2.ast).all distinctB)) = some true := by
    decide +kernel
  rw [ho] at this
  simp only [Option.map_some, Option.some.injEq, List.all_eq_true, Bool.and_eq_true] at this
  intro f hf
  refine ⟨usualB_sound (this f hf).1, fun out e => distinctB_sound ?_⟩
  have := (this f hf).2
  rw [e] at this
  exact this

example : ∃ es es', Prints (disk named) (steps 1) .dependsOn (pat c!"//p:a") [] [c!"library", c!"depends-on"] (grouped es) ∧
    Prints (disk named) (evaluated (steps 1)) .dependsOn (pat c!"//p:a") [] [c!"library", c!"depends-on"] (grouped es') ∧
    ∀ t ds, (t, ds) ∈ es → ∃ ds', (t, ds') ∈ es' ∧ ds.Sublist ds' := by
  obtain ⟨found, files, hs, hu⟩ := named_usual
  have hf : Collect.collectBuildFiles (disk named).tree (disk named).symlink [] (pat c!"//p:a") 9 = some [c!"p/BUILD"] := by
    decide +kernel
  have : found = [c!"p/BUILD"] := Option.some.inj (hs.opened.files.symm.trans hf)
  subst this
  exact C135_depends_on_partial (disk_healthy named_clean) rfl hu hs (by decide)

example : runCommand (disk named) (steps 1) .dependsOn (pat c!"//p:a") =
      some ⟨0, c!"//p:a //p:c\n", []⟩ ∧
    runCommand (disk named) (evaluated (steps 1)) .dependsOn (pat c!"//p:a") =
      some ⟨0, c!"//p:a //p:c\n//p:a //p:b\n//p:c //p:b\n", []⟩ := by decide +kernel

/-! ### What is not so -/

/-- **C135**, full statement for `lib-headers`: what is printed as a header is printed with `-e`. -/
def C135_statement : Prop :=
  ∀ (m : Machine) (flags : Flags) (pattern : BazelPattern) (ran ran' : Ran), Healthy m → flags.format = .json →
    0 ≤ flags.depth → runCommand m flags .libraryHeaders pattern = some ran →
    runCommand m (evaluated flags) .libraryHeaders pattern = some ran' →
    ∀ p : Str, (c!"{\"header\": \"" ++ p ++ c!"\", ") <:+: ran.out → (c!"{\"header\": \"" ++ p ++ c!"\", ") <:+: ran'.out

/-- A library with headers in a directory that is named. -/
def namedPrefix : List (Str × Str) :=
  [(c!"p/BUILD", c!"DIR=\"d\"\ncc_library(name=\"a\",hdrs=[\"a.h\"],include_prefix=DIR)")]

/-- Headers are not printed with the same path, if the directory has to be evaluated. -/
theorem C135_counterexample : ¬ C135_statement := by
  intro h
  have hc : ∀ e ∈ namedPrefix, cleanText e.2 = true := by decide +kernel
  have h1 : runCommand (disk namedPrefix) { steps 0 with format := .json } .libraryHeaders everything =
      some ⟨0, c!"{\"header\": \"p/a.h\", \"providing-rule\": [\"//p:a\"]}\n", []⟩ := by decide +kernel
  have h2 : runCommand (disk namedPrefix) (evaluated { steps 0 with format := .json }) .libraryHeaders everything =
      some ⟨0, c!"{\"header\": \"d/a.h\", \"providing-rule\": [\"//p:a\"]}\n", []⟩ := by decide +kernel
  have := h _ _ _ _ _ (disk_healthy hc) rfl (by decide) h1 h2 c!"p/a.h"
    (List.isInfixOf_internal_iff_isInfix.1 (by decide +kernel))
  have := List.isInfixOf_internal_iff_isInfix.2 this
  revert this
  decide +kernel

/-- An alias for what is not known is not printed. -/
example : runCommand (disk [(c!"p/BUILD", c!"Y=\"y\"\nalias(name=\"x\",actual=Y)")]) (steps 0) .aliasedBy everything =
      some ⟨0, [], []⟩ ∧
    runCommand (disk [(c!"p/BUILD", c!"Y=\"y\"\nalias(name=\"x\",actual=Y)")]) (evaluated (steps 0)) .aliasedBy
      everything = some ⟨0, c!"//p:y //p:x\n", []⟩ := by decide +kernel

end Props
end Bant
