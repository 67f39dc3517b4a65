import Verif.Lemmas.CommandOutput

/-! # Commands that do not write a table of targets; and that all commands end (C97 to C100) -/
namespace Bant
namespace Props
open Commands CommandSpec Cli Query Rules Headers GraphSpec Table TableSpec

/-! ## C97: all commands end -/

/-- **C97**: loading the workspace never crashes, whatever is in its files. -/
theorem C97_load (m : Machine) : Workspace.load m.fs ≠ none := by
  obtain ⟨stmts, hs⟩ := C59_parsed m.fs
  have hl := C59_load m.fs stmts fun ws _ content hc => hs ws content hc
  simp only [] at hl
  rw [hl]
  simp

theorem performs {m : Machine} {flags : Flags} {cmd : Command} {pattern : BazelPattern} {p : Prepared}
    (hw : workspaceOf m = some p.workspace) (hc : ∀ f ∈ trees p.files, Complete f.2)
    (ht : FromTexts m (evaluates flags cmd) p.files)
    (hgrep : cmd = .print ∨ cmd = .parse → ∀ find, LooksFor m flags (some find) →
      Within find ∧ ∀ s, find s ≠ some (0, 0))
    (htame : cmd = .compilationDB ∨ cmd = .compileFlags → Tame m) :
    ∃ r, perform m flags cmd pattern p = some r := by
  have hs : ∀ f ∈ trees p.files, Searchable f.2 := fun f hf => (hc f hf).toSearchable
  have hs' : ∀ f ∈ p.files, Searchable f.2.ast := fun f hf => hs _ (List.mem_map_of_mem hf)
  have htab : ∀ headers : List Str, headers ≠ [] → ∀ ops : List Op, (∀ op ∈ ops, Fits headers op) →
      ∃ r, table flags headers (some ops) = some r := by
    intro headers hne ops hfit
    obtain ⟨out, h, _⟩ := table_total (flags := flags) hne hfit
    exact ⟨_, h⟩
  have hfit : ∀ (q : BazelPattern) (es : List (BazelTarget × List BazelTarget)) (a b : Str),
      ∀ op ∈ oneToN q es, Fits [a, b] op := by
    intro q es a b op hop
    obtain ⟨e, _, rfl⟩ := List.mem_map.1 hop
    simp [Fits]
  have hcomp : cmd = .compilationDB ∨ cmd = .compileFlags → ∀ pkg r, CompDbSpec.CcRule (trees p.files) pkg r →
      r.name ≠ c!":" ∧ (r.includePrefix ≠ [] → pkg.project ≠ []) := by
    intro hcmd pkg r ⟨ast, h1, h2⟩
    obtain ⟨f, h3, h4⟩ := mem_trees.1 h1
    obtain ⟨n, c, hb, hcont, hr⟩ := ht _ h3
    have he : evaluates flags cmd = true := by rcases hcmd with rfl | rfl <;> simp [evaluates]
    rw [he, or_self] at hr
    obtain ⟨tree, st, h5, _, _, h6⟩ := hr
    simp only [if_true] at h6
    simp only [] at h4
    subst h4
    obtain ⟨h7, h8⟩ := htame hcmd n c tree st _ _ hb hcont h5 h6 r h2
    exact ⟨h7, fun h => absurd h8 h⟩
  cases cmd with
  | print =>
    obtain ⟨out, h⟩ := printed_ends (fromTexts_file ht) hs' (hgrep (.inl rfl)) (pattern := pattern)
    simp only [perform, h]
    exact ⟨_, rfl⟩
  | parse =>
    obtain ⟨out, h⟩ := printed_ends (fromTexts_file ht) hs' (hgrep (.inr rfl)) (pattern := pattern)
    simp only [perform, h]
    split
    · exact ⟨_, rfl⟩
    · exact ⟨_, rfl⟩
  | libraryHeaders =>
    obtain ⟨hm, h, _⟩ := headerMap_spec hs
    simp only [perform, h, Option.map_some]
    refine htab _ (by simp) _ fun op hop => ?_
    obtain ⟨e, _, rfl⟩ := List.mem_map.1 hop
    simp [Fits]
  | genruleOutputs =>
    obtain ⟨hm, h, _⟩ := genruleMap_spec hs
    simp only [perform, h, Option.map_some]
    refine htab _ (by simp) _ fun op hop => ?_
    obtain ⟨e, _, rfl⟩ := List.mem_map.1 hop
    simp [Fits]
  | dwyu =>
    obtain ⟨of, h, _⟩ := account_exists _ hs ⟨m.fs.content, p.workspace, m.line, flags.ignoreKeep⟩ pattern
    simp only [perform, h]
    exact ⟨_, rfl⟩
  | canonicalizeDeps =>
    simp only [perform, canonEdits_eq hs]
    exact ⟨_, rfl⟩
  | listPackages =>
    refine htab _ (by simp) _ fun op hop => ?_
    obtain ⟨e, _, rfl⟩ := List.mem_map.1 hop
    simp [Fits]
  | listTargets =>
    simp only [perform, allTargetRows_eq hs]
    refine htab _ (by simp) _ fun op hop => ?_
    obtain ⟨f, _, h3⟩ := List.mem_flatMap.1 hop
    obtain ⟨e, _, rfl⟩ := List.mem_map.1 h3
    simp [Fits]
  | listWorkspace =>
    obtain ⟨ws, h1, _⟩ := WorkspaceCmd.filtered_spec (workspaceOf_sorted hw) pattern hc
    have : ∃ ws', (pattern.kind = .alwaysMatch ∧ ws' = p.workspace) ∨
        (pattern.kind ≠ .alwaysMatch ∧ WorkspaceCmd.filtered p.workspace pattern (trees p.files) = some ws') := by
      by_cases hk : pattern.kind = .alwaysMatch
      · exact ⟨_, .inl ⟨hk, rfl⟩⟩
      · exact ⟨_, .inr ⟨hk, h1⟩⟩
    obtain ⟨ws', h2⟩ := this
    obtain ⟨out, h3⟩ := output_total flags.format (headers := [c!"project", c!"version", c!"directory"]) (by simp)
      (ops := ws'.map fun e : VersionedProject × Str =>
        .row [e.1.project, if e.1.version = [] then c!"-" else e.1.version, e.2]) (by
        intro op hop
        obtain ⟨e, _, rfl⟩ := List.mem_map.1 hop
        simp [Fits])
    simp only [perform, C75_output _ _ _ _ _ h2, h3]
    exact ⟨_, rfl⟩
  | aliasedBy =>
    obtain ⟨am, h, _⟩ := aliasMap_spec hs
    simp only [perform, h, Option.map_some]
    exact htab _ (by simp) _ (hfit _ _ _ _)
  | dependsOn => exact htab _ (by simp) _ (hfit _ _ _ _)
  | hasDependents => exact htab _ (by simp) _ (hfit _ _ _ _)
  | compilationDB =>
    have := (C77_commands_partial p.workspace m.cwd (m.fs.content c!".bazelrc") pattern _ hs).1.2 (hcomp (.inl rfl))
    obtain ⟨out, h⟩ := Option.isSome_iff_exists.1 this
    simp only [perform, h]
    exact ⟨_, rfl⟩
  | compileFlags =>
    have := (C77_commands_partial p.workspace m.cwd (m.fs.content c!".bazelrc") pattern _ hs).2.2 (hcomp (.inr rfl))
    obtain ⟨out, h⟩ := Option.isSome_iff_exists.1 this
    simp only [perform, h]
    exact ⟨_, rfl⟩

/-- **C97**, full statement: no command crashes or runs for ever, whatever is in the files: if the search for files
ends, files that are readable can be read, and the regular expression finds parts of texts. -/
def C97_statement : Prop :=
  ∀ (m : Machine) (flags : Flags) (cmd : Command) (pattern : BazelPattern), Findable m cmd pattern →
    (∀ path, IsBuild path → m.fs.canRead path = true → m.fs.content path ≠ none) →
    (∀ find, LooksFor m flags (some find) → Within find) →
    ∃ ran, runCommand m flags cmd pattern = some ran

/-- **C97** if nothing is missing in the BUILD files; for `print` and `parse` if the regular expression has no empty
match at the begin of a text; for `compilation-db` and `compile-flags` without `include_prefix` and rules called `:`
(missing: the other cases, see C67 and C77 for the latter two). -/
theorem C97_ends_partial {m : Machine} (hh : Healthy m) {flags : Flags} {cmd : Command} {pattern : BazelPattern}
    (hf : Findable m cmd pattern)
    (hgrep : cmd = .print ∨ cmd = .parse → ∀ find, LooksFor m flags (some find) →
      Within find ∧ ∀ s, find s ≠ some (0, 0))
    (htame : cmd = .compilationDB ∨ cmd = .compileFlags → Tame m) :
    ∃ ran, runCommand m flags cmd pattern = some ran := by
  cases hw : workspaceOf m with
  | none =>
    have hl := C97_load m
    unfold workspaceOf at hw
    unfold runCommand prepare
    cases h : Workspace.load m.fs with
    | none => exact absurd h hl
    | some o =>
      cases o with
      | none => exact ⟨_, rfl⟩
      | some ws => rw [h] at hw; cases hw
  | some ws =>
    obtain ⟨p, h1, rfl, h3, h4⟩ := prepared_total hh (flags := flags) hw hf
    obtain ⟨r, h5⟩ := performs hw h3 h4 hgrep htame (pattern := pattern)
    rw [run_eq hw, h1, Option.bind_some, h5]
    exact ⟨_, rfl⟩

/-- A list in which something is missing. -/
def holed : Machine := disk [(c!"p/BUILD", c!"cc_library(name=\"a\",deps=[\"b\",=])")]

theorem roots_nil : CollectSpec.Roots [] := by
  intro p r h; simp [Workspace.findPath, Workspace.findEntry, Workspace.lowerBound] at h

theorem C97_counterexample : ¬ C97_statement := by
  intro h
  have hw : workspaceOf holed = some [] := by decide +kernel
  obtain ⟨ran, hr⟩ := h holed (steps 0) .dependsOn everything (by
    intro ws hws
    rw [hw] at hws
    cases hws
    refine ⟨roots_nil, fun _ => ?_⟩
    decide +kernel) (by
    intro path _ hr
    simp only [holed, disk] at hr ⊢
    split
    · simp
    · intro hn; rw [hn] at hr; cases hr) (by
    intro find hl
    cases hl with
    | regex h _ => exact absurd rfl h)
  have := congrArg Option.isSome hr
  rw [Option.isSome_some] at this
  revert this
  decide +kernel

/-- Other syntax errors do no harm. -/
example : runCommand (disk [(c!"p/BUILD", c!"cc_library(name=\"a\",deps=[\"b\"]")]) (steps 0) .dependsOn everything =
    some ⟨0, c!"//p:a //p:b\n", []⟩ := by decide +kernel

/-! ## C98: `print` and `parse` -/

/-- **C98**: whenever `print` ends, it has written the rules of the files that are opened for the pattern, that are
asked for by the pattern and in which there is what `-g` looks for; nothing, if the regular expression is not valid. -/
theorem C98_print {m : Machine} {flags : Flags} {pattern : BazelPattern} {ws : Workspace.Map} {ran : Ran}
    (hw : workspaceOf m = some ws) (h : runCommand m flags .print pattern = some ran) :
    ran.status = 0 ∧ ∃ found files, OpenedFor m ws flags.elaborate pattern found files ∧ ran.err = note found ∧
      ((flags.grep ≠ [] ∧ m.regex flags.grep = none ∧ ran.out = []) ∨
        ∃ find, LooksFor m flags find ∧ Shows m flags pattern files find ran.out) := by
  rcases run_inv h with ⟨h1, _⟩ | ⟨ws', p, h1, h2, h3, h4⟩
  · rw [hw] at h1; cases h1
  rw [hw] at h1
  cases h1
  unfold prepareIn at h2
  obtain ⟨⟨files, msg⟩, h5, h6⟩ := Option.bind_eq_some_iff.1 h2
  have hfol : follow m ws flags .print pattern files = some (files, {}) := by simp [follow, usesGraph]
  rw [hfol] at h6
  cases h6
  obtain ⟨found, h7, h8⟩ := opened_spec (by simp [needsProject]) h5
  simp only [perform] at h3
  obtain ⟨s, h9, h10⟩ := Option.map_eq_some_iff.1 h3
  simp only [Prod.mk.injEq] at h10
  obtain ⟨h10, h11⟩ := h10
  have he : evaluates flags .print = flags.elaborate := by simp [evaluates]
  rw [he] at h7
  exact ⟨h10.symm, found, files, h7, h4.trans h8, h11 ▸ printed_shows (openedFor_file h7) h9⟩

/-- **C98**: whenever `parse` ends, it has written nothing without `-p` and `-E`; with one of them, what `print`
writes, also of the files of dependencies, up to the given number of steps. -/
theorem C98_parse {m : Machine} (hh : Healthy m) {flags : Flags} {pattern : BazelPattern} {ws : Workspace.Map}
    {found : List Str} {files : Loaded} (hs : Starts m flags .parse pattern ws found files) {ran : Ran}
    (h : runCommand m flags .parse pattern = some ran) :
    ran.status = 0 ∧ ran.err = note found ∧
      (flags.printAst = false → flags.onlyErrors = false → ran.out = []) ∧
      (flags.printAst = true ∨ flags.onlyErrors = true → ∃ l,
        (if 0 ≤ flags.depth then GrownTo m ws pattern flags.depth.toNat files l else l = files) ∧
        ((flags.grep ≠ [] ∧ m.regex flags.grep = none ∧ ran.out = []) ∨
          ∃ find, LooksFor m flags find ∧ Shows m flags pattern l find ran.out)) := by
  have ho := starts_opened hh hs (by simp [needsProject])
  have hdep : depthOf flags .parse = flags.depth := by simp [depthOf]
  have hfol : ∃ l g, follow m ws flags .parse pattern files = some (l, g) ∧
      (if 0 ≤ flags.depth then GrownTo m ws pattern flags.depth.toNat files l else l = files) := by
    by_cases hd : 0 ≤ flags.depth
    · obtain ⟨l, now, g, h1, h2⟩ := follow_spec hh ho rfl (by rw [hdep]; exact hd)
      rw [hdep] at h2
      exact ⟨l, g, h1, by rw [if_pos hd]; exact grownTo_of h2 (opened_ascending ho)⟩
    · refine ⟨files, {}, ?_, by rw [if_neg hd]⟩
      unfold follow
      rw [hdep, if_neg (by simp [hd])]
  obtain ⟨l, g, h1, h2⟩ := hfol
  rw [run_eq hs.workspace, prepareIn, ho, Option.bind_some, h1, Option.map_some, Option.bind_some] at h
  obtain ⟨r, h3, h4⟩ := Option.map_eq_some_iff.1 h
  subst h4
  simp only [perform] at h3
  have hl : ∀ f ∈ l, Print.FromFile f.2.ast := by
    split at h2
    · exact grownTo_file h2 (openedFor_file hs.opened)
    · subst h2; exact openedFor_file hs.opened
  refine ⟨?_, rfl, ?_, ?_⟩
  · split at h3
    · obtain ⟨s, _, rfl⟩ := Option.map_eq_some_iff.1 h3; rfl
    · cases h3; rfl
  · intro ha he
    rw [ha, he, if_neg (by simp)] at h3
    cases h3
    rfl
  · intro hae
    rw [if_pos (by simpa using hae)] at h3
    obtain ⟨s, h5, rfl⟩ := Option.map_eq_some_iff.1 h3
    exact ⟨l, h2, printed_shows hl h5⟩

example : runCommand (disk twoPackages) {} .print (pat c!"//q:b") =
    some ⟨0, c!"#  //q:b\ncc_library(\n    name = \"b\",\n    deps = [\"//p:c\"]\n)\n", []⟩ := by decide +kernel

/-! ## C99: `workspace` -/

/-- The rows of the table. -/
def projectRows (ps : Workspace.Map) : List Op :=
  ps.map fun e => .row [e.1.project, if e.1.version = [] then c!"-" else e.1.version, e.2]

theorem projectRows_fits (ps : Workspace.Map) :
    ∀ op ∈ projectRows ps, Fits [c!"project", c!"version", c!"directory"] op := by
  intro op hop
  obtain ⟨e, _, rfl⟩ := List.mem_map.1 hop
  simp [Fits]

/-- **C99**: without pattern, `workspace` prints all projects that are known; BUILD files are not even read. -/
theorem C99_all {m : Machine} {ws : Workspace.Map} (hw : workspaceOf m = some ws) (flags : Flags)
    {pattern : BazelPattern} (hp : pattern.kind = .alwaysMatch) :
    Prints m flags .listWorkspace pattern [] [c!"project", c!"version", c!"directory"] (projectRows ws) := by
  obtain ⟨out, h1⟩ := output_total flags.format (by simp) (projectRows_fits ws)
  refine ⟨out, ?_, h1⟩
  have hneed : needsProject .listWorkspace pattern = false := by simp [needsProject, BazelPattern.isMatchall, hp]
  refine run_of hw (files := []) (l := []) (g := {}) ?_ (by simp [follow, usesGraph]) ?_
  · unfold opened fill
    rw [hneed, if_neg (by simp)]
    simp [elaborateAll]
  · simp only [perform, C75_output _ _ _ _ _ (.inl ⟨hp, rfl⟩)]
    change Option.map _ (output flags.format _ (projectRows ws)) = _
    rw [h1]
    rfl

/-- **C99**: with a pattern, `workspace` prints those that matching rules, or files with such, refer to in `load`,
`deps` and `actual`, in order; each in its smallest version. -/
theorem C99_used {m : Machine} (hh : Healthy m) {flags : Flags} {pattern : BazelPattern} {ws : Workspace.Map}
    {found : List Str} {files : Loaded} (hs : Starts m flags .listWorkspace pattern ws found files)
    (hp : pattern.kind ≠ .alwaysMatch) :
    ∃ used : VersionedProject × Str → Bool,
      Prints m flags .listWorkspace pattern (note found) [c!"project", c!"version", c!"directory"]
        (projectRows (ws.filter used)) ∧
      ∀ e ∈ ws, used e = true ↔ WorkspaceCmdSpec.Lowest ws e ∧ ∃ project,
        WorkspaceCmdSpec.Uses (WorkspaceCmdSpec.Mentions pattern) pattern (trees files) project ∧
          WorkspaceSpec.AskedAs project e.1.project := by
  have hneed : needsProject .listWorkspace pattern = true := by
    unfold needsProject BazelPattern.isMatchall
    cases hk : pattern.kind <;> simp_all
  have ho := starts_opened hh hs hneed
  have hg := workspaceOf_sorted hs.workspace
  obtain ⟨ps, h1, h2, h3⟩ := WorkspaceCmd.filtered_spec hg pattern (opened_complete hh ho)
  have hd := Classical.propDecidable
  refine ⟨fun e => decide (WorkspaceCmdSpec.Lowest ws e ∧ ∃ project,
        WorkspaceCmdSpec.Uses (WorkspaceCmdSpec.Mentions pattern) pattern (trees files) project ∧
          WorkspaceSpec.AskedAs project e.1.project), ?_, fun e _ => by rw [decide_eq_true_iff]⟩
  have : ps = ws.filter fun e => decide (WorkspaceCmdSpec.Lowest ws e ∧ ∃ project,
        WorkspaceCmdSpec.Uses (WorkspaceCmdSpec.Mentions pattern) pattern (trees files) project ∧
          WorkspaceSpec.AskedAs project e.1.project) := by
    refine Workspace.sorted_ext h2 (WorkspaceCmd.sorted_filter hg _) fun e => ?_
    rw [h3, List.mem_filter, decide_eq_true_iff]
  rw [← this]
  obtain ⟨out, h4⟩ := output_total flags.format (by simp) (projectRows_fits ps)
  refine ⟨out, run_of hs.workspace ho (l := files) (g := {}) (by simp [follow, usesGraph]) ?_, h4⟩
  simp only [perform, C75_output _ _ _ _ _ (.inr ⟨hp, h1⟩)]
  change Option.map _ (output flags.format _ (projectRows ps)) = _
  rw [h4]
  rfl

/-- Two external projects, one of which is used. -/
def withProjects : Machine :=
  { disk [(c!"p/BUILD", c!"cc_library(name=\"a\",deps=[\"@x//:y\"])")] with
    fs := ⟨fun d => d.head? = some 'b', fun _ => true, fun p =>
      if p = c!"MODULE.bazel" then some c!"bazel_dep(name=\"x\",version=\"1\")\nbazel_dep(name=\"z\")"
      else if p = c!"p/BUILD" then some c!"cc_library(name=\"a\",deps=[\"@x//:y\"])" else none, fun _ => []⟩ }

example : runCommand withProjects {} .listWorkspace .always = some ⟨0,
    c!"x 1 bazel-out/../../../external/x~1\nz - bazel-out/../../../external/z\n", []⟩ := by decide +kernel
example : runCommand withProjects {} .listWorkspace (pat c!"//p:a") = some ⟨0,
    c!"x 1 bazel-out/../../../external/x~1\n", []⟩ := by decide +kernel

/-! ## C100: `compilation-db` and `compile-flags` -/

theorem compile_depth (flags : Flags) {cmd : Command} (h : cmd = .compilationDB ∨ cmd = .compileFlags) :
    0 ≤ depthOf flags cmd ∧ (depthOf flags cmd).toNat = limit flags := by
  unfold depthOf limit intMax
  by_cases hd : flags.depth ≤ 0
  · rcases h with rfl | rfl <;> simp [hd]
  · simp only [hd, false_and, if_false, and_true]; omega

theorem compile_files {m : Machine} (hh : Healthy m) {flags : Flags} {cmd : Command} {pattern : BazelPattern}
    {ws : Workspace.Map} {found : List Str} {files : Loaded} (hs : Starts m flags cmd pattern ws found files)
    (hcmd : cmd = .compilationDB ∨ cmd = .compileFlags) {now : Files}
    (hg : Grown m ws pattern (limit flags) files now) :
    (∀ f ∈ now, Searchable f.2) ∧ ∃ l g, trees l = now ∧ ∀ r, perform m flags cmd pattern ⟨ws, l, g, note found⟩ = some r →
      runCommand m flags cmd pattern = some ⟨r.1, r.2, note found⟩ := by
  have hn : needsProject cmd pattern = true := by rcases hcmd with rfl | rfl <;> simp [needsProject]
  have hsp : searched cmd pattern = pattern := by rcases hcmd with rfl | rfl <;> rfl
  have hu : usesGraph cmd = true := by rcases hcmd with rfl | rfl <;> rfl
  have ho := starts_opened hh hs hn
  obtain ⟨hd1, hd2⟩ := compile_depth flags hcmd
  obtain ⟨l, now', g, h1, h2⟩ := follow_spec hh ho hu hd1
  have hg' := h2.grown
  rw [hd2, hsp] at hg'
  have := grown_unique hg' hg
  subst this
  exact ⟨h2.searchable, l, g, h2.same, fun r hr => run_of hs.workspace ho h1 hr⟩

/-- **C100**, full statement: for the same pattern, both commands succeed, and agree: the directories are those of all
files that are opened for the pattern or reached from there, and the database is JSON with an entry for each source of
matching rules, with these directories and the options of `.bazelrc`. -/
def C100_statement : Prop :=
  ∀ (m : Machine) (flags : Flags) (pattern : BazelPattern) (ws : Workspace.Map) (found : List Str) (files : Loaded)
    (now : Files), Healthy m → Starts m flags .compilationDB pattern ws found files →
    Grown m ws pattern (limit flags) files now →
    ∃ (opts dirs : List Str) (text : Str), opts = CompDb.fileOptions (m.fs.content c!".bazelrc") ∧ (∀ d, d ∈ dirs ↔ CompDbSpec.Dir ws now d) ∧
      runCommand m flags .compileFlags pattern =
        some ⟨0, (opts ++ dirs.map (c!"-I" ++ ·)).flatMap (· ++ c!"\n"), note found⟩ ∧
      runCommand m flags .compilationDB pattern = some ⟨0, text, note found⟩ ∧
      Json.read false text =
        some (.arr ((CompDbSpec.firsts (CompDbSpec.allSources ws pattern now)).map (CompDbSpec.entryOf m.cwd opts dirs)))

/-- **C100** unless C77 tells otherwise: both commands succeed, and have the same directories; these are those of all
files, if there is no clash (C78); if no text needs quoting, the database can be read by readers that allow commas
before closing brackets (missing: all other cases, see C76, C77 and C78). -/
theorem C100_compile_partial {m : Machine} (hh : Healthy m) {flags : Flags} {pattern : BazelPattern}
    {ws : Workspace.Map} {found : List Str} {files : Loaded}
    (hs : Starts m flags .compilationDB pattern ws found files) {now : Files}
    (hg : Grown m ws pattern (limit flags) files now)
    (hok : ∀ pkg r, CompDbSpec.CcRule now pkg r → r.name ≠ c!":" ∧ (r.includePrefix ≠ [] → pkg.project ≠ [])) :
    ∃ (opts dirs : List Str) (text : Str), opts = CompDb.fileOptions (m.fs.content c!".bazelrc") ∧
      (CompDbSpec.NoClash ws now → ∀ d, d ∈ dirs ↔ CompDbSpec.Dir ws now d) ∧
      runCommand m flags .compileFlags pattern =
        some ⟨0, (opts ++ dirs.map (c!"-I" ++ ·)).flatMap (· ++ c!"\n"), note found⟩ ∧
      runCommand m flags .compilationDB pattern = some ⟨0, text, note found⟩ ∧
      (PlainTexts ws m.cwd (m.fs.content c!".bazelrc") pattern now dirs → Json.read true text =
        some (.arr ((CompDbSpec.firsts (CompDbSpec.allSources ws pattern now)).map (CompDbSpec.entryOf m.cwd opts dirs)))) := by
  have hs' : Starts m flags .compileFlags pattern ws found files := by
    refine ⟨hs.workspace, hs.roots, ?_⟩
    have := hs.opened
    simpa [evaluates, searched] using this
  obtain ⟨h1, l, g, rfl, h3⟩ := compile_files hh hs (.inl rfl) hg
  obtain ⟨_, l', g', h2', h3'⟩ := compile_files hh hs' (.inr rfl) hg
  obtain ⟨dirs, hd⟩ := Option.isSome_iff_exists.1 ((C77_crash ws _ h1).2 hok)
  have htext := (C77_commands_partial ws m.cwd (m.fs.content c!".bazelrc") pattern _ h1).1.2 hok
  obtain ⟨text, htext⟩ := Option.isSome_iff_exists.1 htext
  refine ⟨_, dirs, text, rfl, fun hc => C78_dirs_partial ws _ dirs h1 hc hd, ?_, ?_, ?_⟩
  · exact h3' (0, _) (by simp only [perform, h2', C78_flags ws _ _ dirs hd]; rfl)
  · exact h3 (0, text) (by simp only [perform, htext]; rfl)
  · intro hp
    obtain ⟨text', h4, h5⟩ := C76_database_partial ws m.cwd _ pattern _ dirs h1 hd hp
    rw [htext] at h4
    cases h4
    exact h5

/-- A library, and what it depends on. -/
def compiled : List (Str × Str) :=
  [(c!"p/BUILD", c!"cc_library(name=\"a\",srcs=[\"a.cc\"],deps=[\"//q:b\"])"),
   (c!"q/BUILD", c!"cc_library(name=\"b\",srcs=[\"b.cc\"],includes=[\"inc\"])")]

/-- The same with options. -/
def compiledWith : List (Str × Str) := (c!".bazelrc", c!"build --cxxopt=-std=c++17") :: compiled

/-- The database is not JSON. -/
theorem C100_counterexample : ¬ C100_statement := by
  intro h
  have hc : ∀ e ∈ compiled, cleanText e.2 = true := by decide +kernel
  obtain ⟨found, files, hs, ho⟩ := disk_starts hc (by decide +kernel) {} .compilationDB (pat c!"//p:a")
    (by decide +kernel) (by decide)
  obtain ⟨l, now, g, h1, h2⟩ := follow_spec (disk_healthy hc) ho (by decide) (by decide)
  obtain ⟨opts, dirs, text, _, _, _, h3, h4⟩ := h _ _ _ _ _ _ now (disk_healthy hc) hs h2.grown
  have hrun : (runCommand (disk compiled) {} .compilationDB (pat c!"//p:a")).bind (fun r => Json.read false r.out) = none := by
    decide +kernel
  rw [h3, Option.bind_some, h4] at hrun
  cases hrun

example : runCommand (disk compiledWith) {} .compileFlags (pat c!"//p:a") =
    some ⟨0, c!"-std=c++17\n-I.\n-Ibazel-bin\n-Iq/inc\n", []⟩ := by decide +kernel
example : runCommand (disk compiledWith) {} .compilationDB (pat c!"//p:a") = some ⟨0,
    c!"[\n  {\n    \"file\": \"p/a.cc\",\n    \"arguments\": [\n      \"gcc\",\n      \"-xc++\",\n      \"-U_FORTIFY_SOURCE\",\n      \"-O2\",\n      \"-DNDEBUG\",\n      \"-std=c++17\",\n      \"-iquote\", \".\",\n      \"-iquote\", \"bazel-bin\",\n      \"-iquote\", \"q/inc\",\n      \"-c\", \"p/a.cc\",\n     ],\n     \"directory\": \"/w\"\n  },\n]\n",
    []⟩ := by decide +kernel

end Props
end Bant
