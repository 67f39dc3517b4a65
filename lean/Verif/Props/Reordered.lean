import Verif.Lemmas.Reordered
import Verif.Lemmas.Swapped
import Verif.Props.SameRules

/-! The order of the rules in BUILD files (C125, C126). -/
namespace Bant
namespace Props
open Parser Commands CommandSpec Cli Query Rules Headers GraphSpec RulesSpec StableSpec Stable

section
variable {m m' : Machine} {flags : Flags} {pattern : BazelPattern} {ws : Workspace.Map} {found : List Str}
  {files : Loaded}

theorem prints_same {cmd : Command} {message : Str} {headers : List Str} {rows : List Table.Op}
    (h : Prints m flags cmd pattern message headers rows) (h' : Prints m' flags cmd pattern message headers rows) :
    runCommand m' flags cmd pattern = runCommand m flags cmd pattern := by
  obtain ⟨out, h1, h2⟩ := h
  obtain ⟨out', h3, h4⟩ := h'
  rw [h2] at h4
  cases h4
  rw [h1, h3]

theorem sorted_texts_ext {α : Type} {l l' : List (Str × α)} (h : SortedKeys l) (h' : SortedKeys l')
    (hm : ∀ x, x ∈ l ↔ x ∈ l') : l = l' := by
  have hn : ∀ {l : List (Str × α)}, SortedKeys l → l.Nodup :=
    fun h => List.Pairwise.imp (fun {a b} hlt (he : a = b) => strLt_ne hlt (by rw [he])) h
  refine List.Perm.eq_of_pairwise (le := fun a b : Str × α => strLt a.1 b.1 = true) ?_ h h'
    ((List.perm_ext_iff_of_nodup (hn h) (hn h')).2 hm)
  intro a b _ _ h1 h2
  rw [strLt_asymm h1] at h2
  cases h2

/-- Rows with the same targets, each with the same others in whatever order. -/
theorem rows_permuted {es es' : List (BazelTarget × List BazelTarget)}
    (ho : (es.map (·.1)).Pairwise (fun a b => Ordered.lt a b = true))
    (ho' : (es'.map (·.1)).Pairwise (fun a b => Ordered.lt a b = true))
    (hk : ∀ t, t ∈ es.map (·.1) ↔ t ∈ es'.map (·.1))
    (hv : ∀ t bs bs', (t, bs) ∈ es → (t, bs') ∈ es' → bs'.Perm bs) :
    Pairs (fun x y => y.1 = x.1 ∧ y.2.Perm x.2) es es' :=
  pairs_of_keys (R := fun x y => y.2.Perm x.2) ho ho' hk hv

/-- **C125** for `depends-on`: the output is the same. -/
theorem C125_depends_on (h : Reordered (evaluates flags .dependsOn) m m') (hh : Healthy m) (hh' : Healthy m')
    (hs : Starts m flags .dependsOn pattern ws found files) :
    runCommand m' flags .dependsOn pattern = runCommand m flags .dependsOn pattern := by
  obtain ⟨files', hs', hl⟩ := h.starts hh' hs (by simp [needsProject])
  by_cases hd : 0 ≤ flags.depth
  · obtain ⟨es, h1, h2, h3⟩ := C82_depends_on hh hs hd
    obtain ⟨es', h4, h5, h6⟩ := C82_depends_on hh' hs' hd
    have key : ∀ {m m' : Machine} {files files' : Loaded} {es es' : List (BazelTarget × List BazelTarget)},
        Reordered (evaluates flags .dependsOn) m m' → ReshuffledFiles files files' →
        (∀ t ds, (t, ds) ∈ es ↔ Reached m ws pattern flags.depth.toNat files t ∧
          ∃ r, Defines (world m ws) (trees files) t r ∧ ds = depsOf t.package r) →
        (∀ t ds, (t, ds) ∈ es' ↔ Reached m' ws pattern flags.depth.toNat files' t ∧
          ∃ r, Defines (world m' ws) (trees files') t r ∧ ds = depsOf t.package r) →
        ∀ x, x ∈ es → x ∈ es' := by
      intro m m' files files' es es' h hl h3 h6 x hx
      obtain ⟨g1, r, g2, g3⟩ := (h3 x.1 x.2).1 hx
      obtain ⟨r', g4, g5⟩ := h.defines ws hl.trees g2
      exact (h6 x.1 x.2).2 ⟨(h.reached ws hl).2 g1, r', g4, by rw [deps_alike (alike_of g5)]; exact g3⟩
    have : es = es' := sorted_ext h2 h5 fun x => ⟨key h hl h3 h6 x, key h.symm hl.symm h6 h3 x⟩
    rw [← this] at h4
    exact prints_same h1 h4
  · exact prints_same (C82_negative hh hs (by omega)) (C82_negative hh' hs' (by omega))

/-- **C125** for `list-packages`: the output is the same. -/
theorem C125_list_packages (h : Reordered (evaluates flags .listPackages) m m') (hh : Healthy m) (hh' : Healthy m')
    (hs : Starts m flags .listPackages pattern ws found files) :
    runCommand m' flags .listPackages pattern = runCommand m flags .listPackages pattern := by
  obtain ⟨files', hs', hl⟩ := h.starts hh' hs (by simp [needsProject])
  by_cases hd : 0 ≤ flags.depth
  rotate_left
  · have key : ∀ {m : Machine} {files : Loaded}, Healthy m → Starts m flags .listPackages pattern ws found files →
        Prints m flags .listPackages pattern (note found) [c!"bazel-file", c!"package"]
          ((files.map fun f => (f.1, f.2.name)).map fun e => .row [e.2, e.1.toString]) := by
      intro m files hh hs
      rw [List.map_map]
      refine prints_of hh hs (by simp [needsProject]) (l := files) (g := {}) ?_ (by simp) rfl ?_
      · unfold follow
        rw [show depthOf flags .listPackages = flags.depth by simp [depthOf], if_neg (by simp; omega)]
      · intro op hop
        obtain ⟨e, _, rfl⟩ := List.mem_map.1 hop
        simp [TableSpec.Fits]
    have e : (files.map fun f => (f.1, f.2.name)) = files'.map fun f => (f.1, f.2.name) :=
      pairs_eq (pairs_map (pairs_mono hl fun x y h => by rw [h.1, h.2.1]))
    have h2 := key hh' hs'
    rw [← e] at h2
    exact prints_same (key hh hs) h2
  obtain ⟨es, h1, h2, h3⟩ := C85_list_packages_partial hh hs hd
  obtain ⟨es', h4, h5, h6⟩ := C85_list_packages_partial hh' hs' hd
  have key : ∀ {m m' : Machine} {files files' : Loaded} {es es' : List (BazelPackage × Str)},
      Reordered (evaluates flags .listPackages) m m' → ReshuffledFiles files files' →
      (∀ pkg name, (pkg, name) ∈ es ↔ (∃ file, (pkg, file) ∈ files ∧ file.name = name) ∨
        (pkg ∉ files.map (·.1) ∧ (∃ t, Reached m ws pattern flags.depth.toNat files t ∧ t.package = pkg) ∧
          DepGraph.pathForPackage (world m ws) pkg = some name)) →
      (∀ pkg name, (pkg, name) ∈ es' ↔ (∃ file, (pkg, file) ∈ files' ∧ file.name = name) ∨
        (pkg ∉ files'.map (·.1) ∧ (∃ t, Reached m' ws pattern flags.depth.toNat files' t ∧ t.package = pkg) ∧
          DepGraph.pathForPackage (world m' ws) pkg = some name)) →
      ∀ x, x ∈ es → x ∈ es' := by
    intro m m' files files' es es' h hl h3 h6 x hx
    refine (h6 x.1 x.2).2 ?_
    rcases (h3 x.1 x.2).1 hx with ⟨file, g1, g2⟩ | ⟨g1, ⟨t, g2, g3⟩, g4⟩
    · obtain ⟨f', g3, g4, g5, _⟩ := pairs_left hl g1
      exact .inl ⟨f'.2, by rw [← show f'.1 = x.1 from g4]; exact g3, by rw [g5]; exact g2⟩
    · refine .inr ⟨by rw [hl.keys]; exact g1, ⟨t, (h.reached ws hl).2 g2, g3⟩, ?_⟩
      have : (world m' ws).fs.canRead = (world m ws).fs.canRead := by
        show m'.fs.canRead = m.fs.canRead
        exact (congrArg Workspace.FileSystem.canRead h.fs).trans rfl
      rw [← g4]
      unfold DepGraph.pathForPackage
      rw [this]
      rfl
  have : es = es' := sorted_ext h2 h5 fun x => ⟨key h hl h3 h6 x, key h.symm hl.symm h6 h3 x⟩
  rw [← this] at h4
  exact prints_same h1 h4

/-- **C125** for `has-dependents`: the same targets are printed, each with the same others in whatever order. -/
theorem C125_has_dependents (h : Reordered (evaluates flags .hasDependents) m m') (hh : Healthy m) (hh' : Healthy m')
    (hs : Starts m flags .hasDependents pattern ws found files) :
    ∃ es es', Prints m flags .hasDependents pattern (note found) [c!"library", c!"has-dependent"] (grouped es) ∧
      Prints m' flags .hasDependents pattern (note found) [c!"library", c!"has-dependent"] (grouped es') ∧
      Pairs (fun x y => y.1 = x.1 ∧ y.2.Perm x.2) es es' := by
  obtain ⟨files', hs', hl⟩ := h.starts hh' hs (by simp [needsProject])
  obtain ⟨es, h1, h2, h3, h4⟩ := C83_has_dependents hh hs
  obtain ⟨es', g1, g2, g3, g4⟩ := C83_has_dependents hh' hs'
  have hr : ∀ b, Reached m' ws .always (limit flags) files' b ↔ Reached m ws .always (limit flags) files b :=
    fun b => h.reached ws hl
  have he : ∀ b t, Edge (world m' ws) (trees files') b t ↔ Edge (world m ws) (trees files) b t :=
    fun b t => ⟨h.symm.edge ws hl.symm.trees, h.edge ws hl.trees⟩
  refine ⟨es, es', h1, g1, rows_permuted h2 g2 ?_ ?_⟩
  · intro t
    rw [h3, g3]
    simp only [hr, he]
  · intro t bs bs' hb hb'
    rw [List.perm_iff_count]
    intro b
    by_cases hbr : Reached m ws .always (limit flags) files b ∧ Edge (world m ws) (trees files) b t
    · obtain ⟨r, hr1, hr2⟩ := hbr.2
      obtain ⟨r', hr3, hr4⟩ := h.defines ws hl.trees hr1
      rw [(h4 t bs hb b).2 r hbr.1 hr1, (g4 t bs' hb' b).2 r' ((hr b).2 hbr.1) hr3, deps_alike (alike_of hr4)]
    · rw [List.count_eq_zero.2 fun hc => hbr ((h4 t bs hb b).1.1 hc), List.count_eq_zero.2]
      intro hc
      have := (g4 t bs' hb' b).1.1 hc
      rw [hr, he] at this
      exact hbr this

/-- **C125** for `list-targets`: the same rules are printed, with their places, in whatever order. -/
theorem C125_list_targets (h : Reordered (evaluates flags .listTargets) m m') (hh : Healthy m) (hh' : Healthy m')
    (hs : Starts m flags .listTargets pattern ws found files) :
    ∃ rows rows' : List (Str × Str × BazelTarget),
      Prints m flags .listTargets pattern (note found) [c!"file-location", c!"rule", c!"target"]
        (rows.map fun e => .row [e.1, e.2.1, e.2.2.toString]) ∧
      Prints m' flags .listTargets pattern (note found) [c!"file-location", c!"rule", c!"target"]
        (rows'.map fun e => .row [e.1, e.2.1, e.2.2.toString]) ∧
      (rows'.map (·.2)).Perm (rows.map (·.2)) := by
  obtain ⟨files', hs', hl⟩ := h.starts hh' hs (by simp [needsProject])
  obtain ⟨now, now', hn, h2, h4⟩ : ∃ now now', Reshuffled now now' ∧
      Prints m flags .listTargets pattern (note found) [c!"file-location", c!"rule", c!"target"]
        (now.flatMap fun f => ((targetsOf f).filter fun e => shown flags pattern e.2.2).map fun e =>
          .row [m.nameLoc f.1 e.1, e.2.1, e.2.2.toString]) ∧
      Prints m' flags .listTargets pattern (note found) [c!"file-location", c!"rule", c!"target"]
        (now'.flatMap fun f => ((targetsOf f).filter fun e => shown flags pattern e.2.2).map fun e =>
          .row [m'.nameLoc f.1 e.1, e.2.1, e.2.2.toString]) := by
    by_cases hd : 0 ≤ flags.depth
    · obtain ⟨now, h1, h2⟩ := C86_list_targets_partial hh hs hd
      obtain ⟨now', h3, h4⟩ := C86_list_targets_partial hh' hs' hd
      exact ⟨now, now', h.grown hl h1 h3, h2, h4⟩
    · have key : ∀ {m : Machine} {files : Loaded}, Healthy m → Starts m flags .listTargets pattern ws found files →
          Prints m flags .listTargets pattern (note found) [c!"file-location", c!"rule", c!"target"]
            ((trees files).flatMap fun f => ((targetsOf f).filter fun e => shown flags pattern e.2.2).map fun e =>
              .row [m.nameLoc f.1 e.1, e.2.1, e.2.2.toString]) := by
        intro m files hh hs
        have hdep : depthOf flags .listTargets = flags.depth := by simp [depthOf]
        refine prints_of hh hs (by simp [needsProject]) (l := files) (g := {}) ?_ (by simp) ?_ ?_
        · unfold follow
          rw [hdep, if_neg (by simp; omega)]
        · simp only [perform, allTargetRows_eq (opened_searchable hh (starts_opened hh hs (by simp [needsProject]))),
            printPattern_shown hdep]
        · intro op hop
          obtain ⟨f, _, h3⟩ := List.mem_flatMap.1 hop
          obtain ⟨e, _, rfl⟩ := List.mem_map.1 h3
          simp [TableSpec.Fits]
      exact ⟨_, _, hl.trees, key hh hs, key hh' hs'⟩
  have e : ∀ (m : Machine) (l : Files), (l.flatMap fun f => ((targetsOf f).filter fun e => shown flags pattern e.2.2).map
      fun e => Table.Op.row [m.nameLoc f.1 e.1, e.2.1, e.2.2.toString]) =
      (l.flatMap fun f => ((targetsOf f).filter fun e => shown flags pattern e.2.2).map
        fun e => (m.nameLoc f.1 e.1, e.2.1, e.2.2)).map fun e => .row [e.1, e.2.1, e.2.2.toString] := by
    intro m l
    rw [List.map_flatMap]
    simp only [List.map_map]
    rfl
  rw [e] at h2 h4
  refine ⟨_, _, h2, h4, ?_⟩
  have e2 : ∀ (m : Machine) (l : Files), (l.flatMap fun f => ((targetsOf f).filter fun e => shown flags pattern e.2.2).map
        fun e => (m.nameLoc f.1 e.1, e.2.1, e.2.2)).map (·.2) =
      ((l.flatMap targetsOf).map (·.2)).filter fun e => shown flags pattern e.2 := by
    intro m l
    rw [List.map_flatMap, List.map_flatMap, List.filter_flatMap]
    congr 1
    funext f
    rw [List.map_map, List.filter_map]
    rfl
  rw [e2, e2]
  exact hn.targets.filter _

/-- **C126** for `lib-headers`: the output is the same. (If there are two C++ libraries for the same protocol buffer
in a file, the first one counts.) -/
theorem C126_lib_headers_partial (h : Reordered (evaluates flags .libraryHeaders) m m') (hh : Healthy m) (hh' : Healthy m')
    (hs : Starts m flags .libraryHeaders pattern ws found files) (hd : 0 ≤ flags.depth)
    (ho : ∀ now, Grown m ws pattern flags.depth.toNat files now → ProtoOnce now) :
    runCommand m' flags .libraryHeaders pattern = runCommand m flags .libraryHeaders pattern := by
  obtain ⟨files', hs', hl⟩ := h.starts hh' hs (by simp [needsProject])
  obtain ⟨now, h1, rows, h2, h3, h4, h5, h6⟩ := C87_lib_headers_partial hh hs hd
  obtain ⟨now', g1, rows', g2, g3, g4, g5, g6⟩ := C87_lib_headers_partial hh' hs' hd
  have hn := h.grown hl h1 g1
  have hp : ∀ p t, HeaderSpec.Provides now' p t ↔ HeaderSpec.Provides now p t :=
    fun p t => ⟨hn.symm.provides (hn.protoOnce (ho _ h1)), hn.provides (ho _ h1)⟩
  have key : ∀ {now now' : Files} {rows rows' : List (Str × List BazelTarget)},
      (∀ p t, HeaderSpec.Provides now' p t ↔ HeaderSpec.Provides now p t) →
      (∀ e ∈ rows, e.2.Pairwise fun a b => Ordered.lt a b = true) →
      (∀ e ∈ rows', e.2.Pairwise fun a b => Ordered.lt a b = true) →
      (∀ p, (∃ ts, (p, ts) ∈ rows) ↔ ∃ t, HeaderSpec.Provides now p t) →
      (∀ p, (∃ ts, (p, ts) ∈ rows') ↔ ∃ t, HeaderSpec.Provides now' p t) →
      (∀ p ts, (p, ts) ∈ rows → ∀ t, t ∈ ts ↔ HeaderSpec.Provides now p t ∧ shown flags pattern t = true) →
      (∀ p ts, (p, ts) ∈ rows' → ∀ t, t ∈ ts ↔ HeaderSpec.Provides now' p t ∧ shown flags pattern t = true) →
      ∀ x, x ∈ rows → x ∈ rows' := by
    intro now now' rows rows' hp h4 g4 h5 g5 h6 g6 x hx
    obtain ⟨p, ts⟩ := x
    obtain ⟨t, ht⟩ := (h5 p).1 ⟨ts, hx⟩
    obtain ⟨ts', hx'⟩ := (g5 p).2 ⟨t, (hp p t).2 ht⟩
    have : ts = ts' := Ascending.unique (h4 _ hx) (g4 _ hx') fun t => by rw [h6 p ts hx, g6 p ts' hx', hp]
    rw [this]
    exact hx'
  have : rows = rows' := sorted_texts_ext h3 g3 fun x => ⟨key hp h4 g4 h5 g5 h6 g6 x,
    key (fun p t => (hp p t).symm) g4 h4 g5 h5 g6 h6 x⟩
  rw [← this] at g2
  exact prints_same h2 g2

/-- **C126** for `genrule-outputs`: the output is the same. (If two rules have the same output, the first one
counts.) -/
theorem C126_genrule_outputs_partial (h : Reordered (evaluates flags .genruleOutputs) m m') (hh : Healthy m)
    (hh' : Healthy m') (hs : Starts m flags .genruleOutputs pattern ws found files) (hd : 0 ≤ flags.depth)
    (ho : ∀ now, Grown m ws pattern flags.depth.toNat files now → OutputOnce now) :
    runCommand m' flags .genruleOutputs pattern = runCommand m flags .genruleOutputs pattern := by
  obtain ⟨files', hs', hl⟩ := h.starts hh' hs (by simp [needsProject])
  obtain ⟨now, h1, rows, h2, h3, h4⟩ := C88_genrule_outputs hh hs hd
  obtain ⟨now', g1, rows', g2, g3, g4⟩ := C88_genrule_outputs hh' hs' hd
  have hn := h.grown hl h1 g1
  have hf := fun p => find_perm hn.outputs (ho _ h1) p
  have : rows = rows' := sorted_texts_ext h3 g3 fun x => by
    rw [show x = (x.1, x.2) from rfl, h4, g4, hf]
  rw [← this] at g2
  exact prints_same h2 g2

/-- **C125** for `aliased-by`: the same targets are printed, each with the same aliases in whatever order. -/
theorem C125_aliased_by (h : Reordered (evaluates flags .aliasedBy) m m') (hh : Healthy m) (hh' : Healthy m')
    (hs : Starts m flags .aliasedBy pattern ws found files) :
    ∃ es es', Prints m flags .aliasedBy pattern (note found) [c!"actual", c!"aliased-by"] (grouped es) ∧
      Prints m' flags .aliasedBy pattern (note found) [c!"actual", c!"aliased-by"] (grouped es') ∧
      Pairs (fun x y => y.1 = x.1 ∧ y.2.Perm x.2) es es' := by
  obtain ⟨files', hs', hl⟩ := h.starts hh' hs (by simp [needsProject])
  obtain ⟨es, h1, h2, h3⟩ := C89_aliased_by_partial hh hs
  obtain ⟨es', g1, g2, g3⟩ := C89_aliased_by_partial hh' hs'
  have hp := fun t => hl.trees.aliases t
  have hk : ∀ {files : Loaded} {es : List (BazelTarget × List BazelTarget)},
      (∀ t as, (t, as) ∈ es ↔ as = aliasesFor (trees files) t ∧ as ≠ [] ∧ shown flags pattern t = true) →
      ∀ t, t ∈ es.map (·.1) ↔ aliasesFor (trees files) t ≠ [] ∧ shown flags pattern t = true := by
    intro files es h3 t
    rw [List.mem_map]
    constructor
    · rintro ⟨⟨_, as⟩, hm, rfl⟩
      obtain ⟨rfl, k1, k2⟩ := (h3 _ as).1 hm
      exact ⟨k1, k2⟩
    · rintro ⟨k1, k2⟩
      exact ⟨(t, _), (h3 t _).2 ⟨rfl, k1, k2⟩, rfl⟩
  refine ⟨es, es', h1, g1, rows_permuted h2 g2 ?_ ?_⟩
  · intro t
    rw [hk h3, hk g3]
    have : aliasesFor (trees files') t = [] ↔ aliasesFor (trees files) t = [] := by
      rw [← List.length_eq_zero_iff, (hp t).length_eq, List.length_eq_zero_iff]
    rw [ne_eq, ne_eq, this]
  · intro t bs bs' hb hb'
    rw [((h3 t bs).1 hb).1, ((g3 t bs').1 hb').1]
    exact hp t

/-- **C125** for `canonicalize`: the same edits are printed, in whatever order. -/
theorem C125_canonicalize (h : Reordered (evaluates flags .canonicalizeDeps) m m') (hh : Healthy m) (hh' : Healthy m')
    (hs : Starts m flags .canonicalizeDeps pattern ws found files) :
    ∃ edits edits', Suggests m flags .canonicalizeDeps pattern (note found) edits ∧
      Suggests m' flags .canonicalizeDeps pattern (note found) edits' ∧ edits'.Perm edits := by
  obtain ⟨files', hs', hl⟩ := h.starts hh' hs (by simp [needsProject])
  refine ⟨_, _, canonicalize_run hh hs, canonicalize_run hh' hs', ?_⟩
  exact (hl.trees.deps pattern).filterMap _

end

/-- **C126**, full statement: these commands print the same. -/
def C126_statement : Prop :=
  ∀ (m m' : Machine) (flags : Flags) (cmd : Command) (pattern : BazelPattern) (ws : Workspace.Map) (found : List Str)
    (files : Loaded), cmd = .libraryHeaders ∨ cmd = .genruleOutputs →
    Reordered (evaluates flags cmd) m m' → Healthy m → Healthy m' → Starts m flags cmd pattern ws found files →
    0 ≤ flags.depth → runCommand m' flags cmd pattern = runCommand m flags cmd pattern

/-- **C125** for files: rules that are next to each other are in a different order. -/
theorem C125_files {kinds : List Str} {ty : ListType} {xs ys : List Node} (h : Swapped kinds xs ys)
    (hp : c!"package" ∉ kinds) (hg : c!"glob" ∉ kinds) (hs : c!"select" ∉ kinds) (glob : Elab.GlobFn) :
    (DistinctNames (.list ty xs) → Shuffled (.list ty xs) (.list ty ys)) ∧
    ((∀ u, Elab.elabFile glob (.list ty xs) = some u → DistinctNames u) →
      ShuffledEvaluated glob (.list ty xs) (.list ty ys)) := by
  refine ⟨h.swaps.shuffled hp, fun hn => ?_⟩
  unfold ShuffledEvaluated
  rcases walks_swapped glob hg hs h (vars := []) (by simp [Without]) with ⟨e1, e2⟩ | ⟨a, b, e1, e2, e3, _⟩
  · exact .inl ⟨by simp only [Elab.elabFile, Elab.walk, e1, Option.map_none],
      by simp only [Elab.elabFile, Elab.walk, e2, Option.map_none]⟩
  · have h1 : Elab.elabFile glob (.list ty xs) = some (.list ty a.1) := by
      simp only [Elab.elabFile, Elab.walk, e1, Option.map_some]
    have h2 : Elab.elabFile glob (.list ty ys) = some (.list ty b.1) := by
      simp only [Elab.elabFile, Elab.walk, e2, Option.map_some]
    exact .inr ⟨_, _, h1, h2, e3.shuffled hp (hn _ h1)⟩

/-! ### Examples -/

/-- The names are distinct, also after evaluation. -/
def Named (t : Node) : Prop := DistinctNames t ∧ ∀ glob u, Elab.elabFile glob t = some u → DistinctNames u

theorem plainPath_suffix (p : Str) : plainPath p <:+ p := by
  unfold plainPath
  split
  · exact ⟨c!"./", rfl⟩
  · exact List.suffix_refl _

theorem plainPath_build {p : Str} (h : IsBuild p) : IsBuild (plainPath p) := by
  unfold plainPath
  split
  · next rest =>
    obtain ⟨n, hn, h | h⟩ := h
    · exfalso
      simp only [List.mem_cons, List.not_mem_nil, or_false] at hn
      rcases hn with rfl | rfl <;> cases h
    · refine ⟨n, hn, ?_⟩
      rw [List.suffix_cons_iff, List.suffix_cons_iff] at h
      rcases h with h | h | h
      · cases h
      · exact .inl (by simpa using h.symm)
      · exact .inr h
  · exact h

theorem replaced_reordered {texts : List (Str × Str)} {a b : Str} {ty : ListType} {xs ys : List Node}
    (ha : (parseFile a).map (·.1) = some (.list ty xs)) (hb : (parseFile b).map (·.1) = some (.list ty ys))
    {kinds : List Str} (hs : Swapped kinds xs ys) (hk : ∀ k ∈ [c!"package", c!"glob", c!"select"], k ∉ kinds)
    (hn : ∀ e ∈ texts, (('/' :: c!"BUILD") <:+ e.1 ∧ ∃ t, (parseFile e.2).map (·.1) = some t ∧ Named t) ∨
      (¬ IsBuild e.1 ∧ e.2 ≠ a)) (hne : a ≠ [])
    (e : Bool) : Reordered e (disk texts) (replaced texts a b) := by
  have hin : ∀ {name c : Str}, (disk texts).fs.content name = some c → c = [] ∧ name = c!"WORKSPACE" ∨
      (IsBuild name ∧ ∃ t, (parseFile c).map (·.1) = some t ∧ Named t) ∨ (¬ IsBuild name ∧ c ≠ a) := by
    intro name c h
    simp only [disk] at h
    split at h
    · next hw => cases h; exact .inl ⟨rfl, hw⟩
    · obtain ⟨x, hx, rfl⟩ := Option.map_eq_some_iff.1 h
      have hm := List.mem_of_find?_eq_some hx
      have hp := List.find?_some hx
      simp only [decide_eq_true_eq] at hp
      rcases hn x hm with ⟨h1, h2⟩ | ⟨h1, h2⟩
      · refine .inr (.inl ⟨⟨c!"BUILD", by simp, .inr ?_⟩, h2⟩)
        rw [hp] at h1
        exact h1.trans (plainPath_suffix name)
      · refine .inr (.inr ⟨fun hb => h1 ?_, h2⟩)
        rw [hp]
        exact plainPath_build hb
  refine ⟨rfl, ?_, ?_, ?_⟩
  · intro name
    simp only [replacedOn]
    cases (disk texts).fs.content name <;> simp
  · intro name hb
    simp only [replacedOn]
    cases hc : (disk texts).fs.content name with
    | none => rfl
    | some c =>
      rcases hin hc with ⟨rfl, _⟩ | ⟨h, _⟩ | ⟨_, h⟩
      · simp [hne.symm]
      · exact absurd h hb
      · simp [h]
  · intro name c c' h1 h2 hbuild t st t' st' h3 h4
    have hw : ¬ IsBuild c!"WORKSPACE" := by
      rintro ⟨n, h, h' | h'⟩ <;> simp only [List.mem_cons, List.not_mem_nil, or_false] at h <;>
        rcases h with rfl | rfl <;> revert h' <;> decide
    obtain ⟨t0, e1, e2, e3⟩ : ∃ t, (parseFile c).map (·.1) = some t ∧ Named t := by
      rcases hin h1 with ⟨_, rfl⟩ | ⟨_, h⟩ | ⟨h, _⟩
      · exact absurd hbuild hw
      · exact h
      · exact absurd hbuild h
    rw [h3] at e1
    cases e1
    simp only [replacedOn, h1, Option.map_some, Option.some.injEq] at h2
    by_cases hc : c = a
    · rw [if_pos hc] at h2
      subst hc h2
      rw [h3] at ha
      rw [h4] at hb
      cases ha
      cases hb
      exact ⟨fun _ => (C125_files hs (hk _ (by simp)) (hk _ (by simp)) (hk _ (by simp)) fun _ _ => []).1 e2,
        fun pkg => (C125_files hs (hk _ (by simp)) (hk _ (by simp)) (hk _ (by simp)) _).2 (e3 _)⟩
    · rw [if_neg hc] at h2
      subst h2
      rw [h3] at h4
      cases h4
      refine ⟨fun _ => ⟨.refl _, once_of_names e2⟩, fun pkg => ?_⟩
      cases hu : Elab.elabFile ((disk texts).glob pkg) t with
      | none => exact .inl ⟨hu, hu⟩
      | some u => exact .inr ⟨u, u, hu, hu, .refl _, once_of_names (e3 _ _ hu)⟩

/-- `kind(name="name",key=["item"])`. -/
def simpleRule (kind name key item : Str) : Node :=
  .call (.ident kind) (.list .tuple [.assign (.ident c!"name") (.str name false false),
    .assign (.ident key) (.list .list [.str item false false])])

theorem named_of {t : Node} (h : DistinctNames t) (he : ∀ glob, Elab.elabFile glob t = some t) : Named t :=
  ⟨h, fun glob u hu => by rw [he glob] at hu; cases hu; exact h⟩

def twoOutputs : Str := c!"genrule(name=\"g\",outs=[\"x.h\"])\ngenrule(name=\"h\",outs=[\"x.h\"])"
def otherFirst : Str := c!"genrule(name=\"h\",outs=[\"x.h\"])\ngenrule(name=\"g\",outs=[\"x.h\"])"

theorem twoOutputs_tree : (parseFile twoOutputs).map (·.1) = some (.list .list
    [simpleRule c!"genrule" c!"g" c!"outs" c!"x.h", simpleRule c!"genrule" c!"h" c!"outs" c!"x.h"]) := by decide +kernel
theorem otherFirst_tree : (parseFile otherFirst).map (·.1) = some (.list .list
    [simpleRule c!"genrule" c!"h" c!"outs" c!"x.h", simpleRule c!"genrule" c!"g" c!"outs" c!"x.h"]) := by decide +kernel

def outputFiles : List (Str × Str) := [(c!"p/BUILD", twoOutputs)]

theorem outputs_reordered (e : Bool) : Reordered e (disk outputFiles) (replaced outputFiles twoOutputs otherFirst) := by
  refine replaced_reordered (kinds := [c!"genrule"]) twoOutputs_tree otherFirst_tree
    (.swap ⟨c!"genrule", by simp, _, _, rfl⟩ ⟨c!"genrule", by simp, _, _, rfl⟩) (by decide) ?_ (by decide) e
  intro x hx
  simp only [outputFiles, List.mem_singleton] at hx
  subst hx
  exact .inl ⟨by decide, _, twoOutputs_tree, named_of (by unfold DistinctNames; decide +kernel) fun _ => rfl⟩

theorem replaced_healthy {texts : List (Str × Str)} (h : ∀ e ∈ texts, cleanText e.2 = true) {a b : Str}
    (hb : cleanText b = true) : Healthy (replaced texts a b) := by
  have hd := disk_healthy h
  constructor
  · intro path h1 h2
    have := hd.readable path h1 h2
    simp only [replacedOn, ne_eq, Option.map_eq_none_iff]
    exact this
  · intro path text h1 h2
    simp only [replacedOn] at h2
    obtain ⟨c, h3, rfl⟩ := Option.map_eq_some_iff.1 h2
    split
    · exact cleanText_of hb
    · exact hd.usable path c h1 h3

/-- It is false: of two rules with the same output, the first one counts. -/
theorem C126_counterexample : ¬ C126_statement := by
  intro h
  obtain ⟨found, files, hs, _⟩ := disk_starts (texts := outputFiles) (by decide +kernel) (by decide +kernel) (steps 0)
    .genruleOutputs everything (by decide +kernel) (by decide)
  have := h _ _ (steps 0) .genruleOutputs everything _ found files (by simp) (outputs_reordered _)
    (disk_healthy (by decide +kernel)) (replaced_healthy (by decide +kernel) (by decide +kernel)) hs (by decide)
  revert this
  decide +kernel

/-- A file with two libraries. -/
def inOrder : Str := c!"cc_library(name=\"a\",deps=[\"//q:c\"])\ncc_library(name=\"b\",deps=[\"//q:c\"])"
def outOfOrder : Str := c!"cc_library(name=\"b\",deps=[\"//q:c\"])\ncc_library(name=\"a\",deps=[\"//q:c\"])"

theorem inOrder_tree : (parseFile inOrder).map (·.1) = some (.list .list
    [simpleRule c!"cc_library" c!"a" c!"deps" c!"//q:c", simpleRule c!"cc_library" c!"b" c!"deps" c!"//q:c"]) := by
  decide +kernel
theorem outOfOrder_tree : (parseFile outOfOrder).map (·.1) = some (.list .list
    [simpleRule c!"cc_library" c!"b" c!"deps" c!"//q:c", simpleRule c!"cc_library" c!"a" c!"deps" c!"//q:c"]) := by
  decide +kernel

def orderFiles : List (Str × Str) :=
  [(c!"p/BUILD", inOrder), (c!"q/BUILD", c!"cc_library(name=\"c\",hdrs=[\"c.h\"])")]

theorem orderFiles_reordered (e : Bool) : Reordered e (disk orderFiles) (replaced orderFiles inOrder outOfOrder) := by
  refine replaced_reordered (kinds := [c!"cc_library"]) inOrder_tree outOfOrder_tree
    (.swap ⟨c!"cc_library", by simp, _, _, rfl⟩ ⟨c!"cc_library", by simp, _, _, rfl⟩) (by decide) ?_ (by decide) e
  intro x hx
  simp only [orderFiles, List.mem_cons, List.not_mem_nil, or_false] at hx
  rcases hx with rfl | rfl
  · exact .inl ⟨by decide, _, inOrder_tree, named_of (by unfold DistinctNames; decide +kernel) fun _ => rfl⟩
  · exact .inl ⟨by decide, .list .list [simpleRule c!"cc_library" c!"c" c!"hdrs" c!"c.h"], by decide +kernel,
      named_of (by unfold DistinctNames; decide +kernel) fun _ => rfl⟩

/-- The assumptions hold; `depends-on` prints the same, and `has-dependents` the same in a different order. -/
example : runCommand (replaced orderFiles inOrder outOfOrder) (steps 0) .dependsOn everything =
      runCommand (disk orderFiles) (steps 0) .dependsOn everything ∧
    runCommand (disk orderFiles) (steps 0) .dependsOn everything =
      some ⟨0, c!"//p:a //q:c\n//p:b //q:c\n", []⟩ ∧
    runCommand (disk orderFiles) (steps 0) .hasDependents everything =
      some ⟨0, c!"//q:c //p:a\n//q:c //p:b\n", []⟩ ∧
    runCommand (replaced orderFiles inOrder outOfOrder) (steps 0) .hasDependents everything =
      some ⟨0, c!"//q:c //p:b\n//q:c //p:a\n", []⟩ := by
  refine ⟨?_, by decide +kernel, by decide +kernel, by decide +kernel⟩
  obtain ⟨found, files, hs, _⟩ := disk_starts (texts := orderFiles) (by decide +kernel) (by decide +kernel) (steps 0)
    .dependsOn everything (by decide +kernel) (by decide)
  exact C125_depends_on (orderFiles_reordered _) (disk_healthy (by decide +kernel))
    (replaced_healthy (by decide +kernel) (by decide +kernel)) hs

end Props
end Bant
