import Verif.Lemmas.StderrFiles
import Verif.Lemmas.StderrRules
import Verif.Props.Located

/-!
What is written to standard error: C115 (`parse` is silent), C116 (all that is said), C117 (projects that are not
there), C118 (what is not found when dependencies are followed), C119 (`-q`), C120 (`canonicalize`), C121
(`genrule-outputs`), C122 (`dwyu`).
-/
namespace Bant
namespace Props
open Commands CommandSpec Cli GraphSpec StderrSpec Headers Project
open Stderr (Said)

/-! ## What is said -/

/-- The declared projects that are absent, each with a line: the location of its name (with lines as they are counted,
see `C24_counted`; `Clear.counted`), and what is said. -/
def AboutWorkspace (fs : Workspace.FileSystem) (said : List Said) : Prop :=
  ∃ lines : List (Str × Str × Query.Result),
    lines.map (fun x => (x.1, x.2.2)) =
      [c!"WORKSPACE", c!"WORKSPACE.bazel", c!"WORKSPACE.bzlmod", c!"MODULE.bazel"].flatMap
        (fun f => (absentIn fs f).map (f, ·)) ∧
    (∀ x ∈ lines, ∃ content b e, fs.content x.1 = some content ∧ b ≤ e ∧ e ≤ content.length ∧
      piece content b e = x.2.2.name ∧ x.2.1 = whereIs x.1 (asCounted content) b e) ∧
    said = ([c!"WORKSPACE", c!"WORKSPACE.bazel", c!"WORKSPACE.bzlmod", c!"MODULE.bazel"].flatMap (textsFor fs)).map
        .session ++
      if [c!"WORKSPACE", c!"WORKSPACE.bazel"].flatMap (absentIn fs) ≠ [] ∧
          [c!"WORKSPACE.bzlmod", c!"MODULE.bazel"].flatMap (absentIn fs) ≠ [] then
        (lines.map fun x => .session (x.2.1 ++ c!" Can't find extracted project '" ++ x.2.2.name ++ c!"'\n")) ++
          [.session c!"Note: need to run a bazel build at least once to extract external projects\n"]
      else []

/-- What is said about the files for the pattern. -/
def aboutPattern (m : Machine) (ws : Workspace.Map) (pattern : BazelPattern) (found : List Str) : List Said :=
  let project := pattern.pattern.package.project
  (if project ≠ [] ∧ Workspace.findPath ws project = none then [.direct (c!"Unknown project " ++ project ++ c!".\n")]
    else []) ++
  aboutAll m ws project [] found ++
  if found = [] then [.session c!"Pattern did not match any dir with BUILD file.\n"] else []

/-- A list as it is printed. -/
def listed (title : Str) (xs : List Str) : List Str :=
  if xs = [] then [] else [title ++ (xs.flatMap fun x => c!"\t" ++ x ++ c!"\n") ++ c!"\n"]

/-- What is said when dependencies are followed: what the parser says about each file that is loaded; with `-v` what is
not found, and how much there is. -/
structure AboutNeeded (m : Machine) (ws : Workspace.Map) (verbose : Bool) (pattern : BazelPattern) (depth : Int)
    (files : Loaded) (news packages : List BazelPackage) (targets : List BazelTarget) (now : Files)
    (g : DepGraph.Graph) (said : List Said) : Prop where
  built : DepGraph.build (world m ws) pattern depth (trees files) = some (now, g)
  said_eq : said = (news.flatMap fun pkg =>
      match DepGraph.pathForPackage (world m ws) pkg with
      | some path => (textsFor m.fs path).map Said.session
      | none => []) ++
    if verbose then
      (listed c!"Dependcy graph: Did not find these packages\n" (packages.map BazelPackage.toString) ++
        listed c!"Dependency graph: Did not find these targets\n" (targets.map BazelTarget.toString) ++
        [c!"Dependency graph expanded build file# from initial " ++ showInt files.length ++ c!" to " ++
          showInt now.length ++ c!"; " ++ showInt g.dependsOn.length ++ c!" targets and " ++
          showInt g.hasDependents.length ++ c!" that depend on these.\n"]).map .session
    else []
  once : news.Nodup
  news_iff : ∀ pkg, pkg ∈ news ↔ pkg ∉ files.map (·.1) ∧ DepGraph.pathForPackage (world m ws) pkg ≠ none ∧
    ∃ t, Reached m ws pattern depth.toNat files t ∧ t.package = pkg
  packages_order : packages.Pairwise fun a b => Ordered.lt a b = true
  packages_iff : ∀ pkg, pkg ∈ packages ↔ pkg ∉ files.map (·.1) ∧ DepGraph.pathForPackage (world m ws) pkg = none ∧
    ∃ t, Reached m ws pattern depth.toNat files t ∧ t.package = pkg
  targets_order : targets.Pairwise fun a b => Ordered.lt a b = true
  targets_iff : ∀ t, t ∈ targets ↔ Reached m ws pattern depth.toNat files t ∧
    ∀ r, ¬ Defines (world m ws) (trees files) t r

theorem about_workspace {fs : Workspace.FileSystem} {first : List Said} (h : Stderr.workspace fs = some first) :
    AboutWorkspace fs first := by
  obtain ⟨notes, g1, g2, g3⟩ := Stderr.workspace_said h
  refine ⟨notes, g1, fun x hx => ?_, g3⟩
  obtain ⟨content, pos, e1, e2, e3, e4⟩ := g2 x hx
  exact ⟨content, pos, _, e1, Nat.le_add_right _ _, e2, e3, e4⟩

theorem ran_of {m : Machine} {regexError : Str → Str} {flags : Flags} {cmd : Command} {pattern : BazelPattern}
    {run : Stderr.Run} (h : Stderr.runCommand m regexError flags cmd pattern = some run) :
    ∃ ran, Located.runCommand m flags cmd pattern = some ran ∧ ran.status = run.status ∧ ran.out = run.out := by
  unfold Stderr.runCommand at h
  unfold Located.runCommand
  split at h
  · rename_i h1 h2
    rw [h2]
    cases h
    exact ⟨_, rfl, rfl, rfl⟩
  · rename_i p h1 h2
    rw [h2]
    split at h
    · rename_i a b c r _ _ _ h3
      cases h
      exact ⟨_, by simp only [h3]; rfl, rfl, rfl⟩
    · cases h
  · cases h

theorem graph_said {m : Machine} (hh : Healthy m) {ws : Workspace.Map} {flags : Flags} {cmd : Command}
    {pattern : BazelPattern} {files : Loaded} {msg : Str} {b : List Said}
    (ho : opened m ws flags cmd pattern = some (files, msg)) (hu : usesGraph cmd = true) (hd : 0 ≤ depthOf flags cmd)
    (h : Stderr.graph m ws flags cmd pattern (trees files) = some b) :
    ∃ news packages targets now g, AboutNeeded m ws (decide (flags.verbose > 0)) (searched cmd pattern)
      (depthOf flags cmd) files news packages targets now g b := by
  unfold Stderr.graph at h
  rw [if_pos (by simp [hu, hd])] at h
  simp only at h
  split at h
  · rename_i a now g h1 h2
    simp only [Option.some.injEq] at h
    subst h
    have hsound := healthy_sound hh ho (searched cmd pattern) (depthOf flags cmd).toNat
    obtain ⟨todo, h3, h4⟩ := Option.bind_eq_some_iff.1 h1
    have h2' := h2
    unfold DepGraph.build at h2'
    rw [h3] at h2'
    simp only at h2'
    obtain ⟨news, e1, e2, e3, _⟩ := Stderr.rounds_said _ h4 h2'
    obtain ⟨todo', i1, i2, i3⟩ := initial_spec (pattern := searched cmd pattern) hsound.loaded
    have : todo' = todo := by
      have := i1.symm.trans h3
      exact Option.some.inj this
    subst this
    have hb : Before (world m ws) (searched cmd pattern) (trees files) 0 (trees files) {} todo' :=
      initial_before hsound.loaded i2 i3
    have hl := Stderr.rounds_listed (a := {}) _ hb ⟨by simp, by simp, List.Pairwise.nil, List.Pairwise.nil⟩
      (fun j t hj => hsound.needed j t (by omega)) h4
    obtain ⟨now', g', b1, b2⟩ := build_spec (depthOf flags cmd) hsound.loaded hsound.needed
    have hnow : now' = now ∧ g' = g := by
      have := b1.symm.trans h2
      simpa using this
    obtain ⟨rfl, rfl⟩ := hnow
    have hkeys : ∀ pkg, lookup (trees files) pkg = none ↔ pkg ∉ files.map (·.1) := by
      intro pkg; rw [lookup_none, trees_keys]
    refine ⟨news, a.packages, a.targets, now', g', h2, ?_, e2, ?_, hl.ascending, ?_, hl.ascending', ?_⟩
    · rw [e1]
      simp only [List.nil_append, List.map_append, List.map_flatMap]
      congr 1
      · congr 1
        funext pkg
        unfold Stderr.saysOf
        cases hp : DepGraph.pathForPackage (world m ws) pkg with
        | none => rw [show DepGraph.pathForPackage ⟨m.fs, ws, m.glob⟩ pkg = none from hp]; rfl
        | some path => rw [show DepGraph.pathForPackage ⟨m.fs, ws, m.glob⟩ pkg = some path from hp]
      · simp only [decide_eq_true_eq]
        split
        · have hlen : (trees files).length = files.length := by simp [trees]
          simp only [Stderr.notFound, listed, List.map_eq_nil_iff, Stderr.list, Stderr.grown, hlen, List.map_append]
        · rfl
    · intro pkg
      rw [e3, hkeys]
      refine and_congr_right fun hnin => ?_
      have hnone := (hkeys pkg).2 hnin
      cases hk : lookup now' pkg with
      | none =>
        simp only [Option.isSome_none, Bool.false_eq_true, false_iff, not_and]
        rintro hp ⟨t, ⟨n, hn, hr⟩, rfl⟩
        have hwell := hsound.needed n t hn hr hnone
        cases ht : GraphSpec.treeOf (world m ws) (trees files) t.package with
        | none => exact hp ((Stderr.treeOf_none hnone hwell).1 ht)
        | some ast =>
          have := (b2.loaded t.package ast).2 ⟨ht, .inr ⟨n, t, by omega, hr, rfl⟩⟩
          rw [hk] at this; cases this
      | some ast =>
        simp only [Option.isSome_some, true_iff]
        obtain ⟨ht, hor⟩ := (b2.loaded pkg ast).1 hk
        rcases hor with hx | ⟨j, t, hj, hr, rfl⟩
        · exact absurd hnone hx
        · refine ⟨fun hp => ?_, t, ⟨j, by omega, hr⟩, rfl⟩
          rw [(Stderr.treeOf_none hnone (hsound.needed j t (by omega) hr hnone)).2 hp] at ht
          cases ht
    · intro pkg
      rw [hl.packages, ← hkeys]
      constructor
      · rintro ⟨ht, j, t, hj, hr, rfl⟩
        have hnone : lookup (trees files) t.package = none := by
          cases hk : lookup (trees files) t.package with
          | none => rfl
          | some ast => rw [treeOf_of_lookup hk] at ht; cases ht
        exact ⟨hnone, (Stderr.treeOf_none hnone (hsound.needed j t (by omega) hr hnone)).1 ht, t, ⟨j, by omega, hr⟩, rfl⟩
      · rintro ⟨hnone, hp, t, ⟨n, hn, hr⟩, rfl⟩
        exact ⟨(Stderr.treeOf_none hnone (hsound.needed n t hn hr hnone)).2 hp, n, t, by omega, hr, rfl⟩
    · intro t
      rw [hl.targets]
      constructor
      · rintro ⟨hdn, j, hj, hr⟩
        refine ⟨⟨j, by omega, hr⟩, fun r hdef => ?_⟩
        rw [defn_iff.2 ⟨r, hdef, rfl⟩] at hdn; cases hdn
      · rintro ⟨⟨n, hn, hr⟩, hno⟩
        refine ⟨?_, n, by omega, hr⟩
        cases hv : defn (world m ws) (trees files) t with
        | none => rfl
        | some ds =>
          obtain ⟨r, hr', _⟩ := defn_iff.1 hv
          exact absurd hr' (hno r)
  · cases h

/-- What is said before the command itself begins: about the workspace, about the files that are found for the pattern, and
about what is needed. -/
structure Beginning (m : Machine) (flags : Flags) (cmd : Command) (pattern : BazelPattern) (ws : Workspace.Map)
    (found : List Str) (files : Loaded) (said : List Said) : Prop where
  workspace : workspaceOf m = some ws
  opened : OpenedFor m ws (evaluates flags cmd) (searched cmd pattern) found files
  packages : ∀ f ∈ found, ∃ pkg,
    Collect.packageOf ws f (searched cmd pattern).pattern.package.project = some (some pkg)
  said_eq : ∃ first b, AboutWorkspace m.fs first ∧ said = first ++ aboutPattern m ws (searched cmd pattern) found ++ b ∧
    if usesGraph cmd = true ∧ 0 ≤ depthOf flags cmd then
      ∃ news packages targets now g, AboutNeeded m ws (decide (flags.verbose > 0)) (searched cmd pattern)
        (depthOf flags cmd) files news packages targets now g b
    else b = []

/-- `file` is the BUILD file of the package: the one that is found for the pattern, or else the one that is looked for when
dependencies are followed. -/
def BuildFileOf (m : Machine) (ws : Workspace.Map) (pattern : BazelPattern) (found : List Str) (files : Loaded)
    (pkg : BazelPackage) (file : Str) : Prop :=
  if pkg ∈ files.map (·.1) then
    ∃ text, firstReadable m ws pattern.pattern.package.project pkg found = some (file, text)
  else DepGraph.pathForPackage (world m ws) pkg = some file

/-- `loc` is the location of `text` in the BUILD file of the package, or that of the `+` or `glob` that it was made by
(with lines as they are counted: `C24_counted`, `Clear.counted`). -/
def PlaceIn (m : Machine) (ws : Workspace.Map) (pattern : BazelPattern) (found : List Str) (files : Loaded)
    (pkg : BazelPackage) (text loc : Str) : Prop :=
  ∃ file content b e, BuildFileOf m ws pattern found files pkg file ∧ m.fs.content file = some content ∧ b ≤ e ∧
    e ≤ content.length ∧ (piece content b e = text ∨ piece content b e = c!"+" ∨ piece content b e = c!"glob") ∧
    loc = whereIs file (asCounted content) b e

/-- The parts of a run: no workspace, or what is said before the command and by the command. -/
theorem said_parts {m : Machine} (hh : Healthy m) {regexError : Str → Str} {flags : Flags} {cmd : Command}
    {pattern : BazelPattern} (hneed : needsProject cmd pattern = true) {run : Stderr.Run}
    (h : Stderr.runCommand m regexError flags cmd pattern = some run) :
    (workspaceOf m = none ∧ run.status = 1 ∧ run.out = [] ∧ ∃ first, AboutWorkspace m.fs first ∧
      run.said = first ++ [.session c!"Didn't find any workspace file. Is this a bazel project root ?\n"]) ∨
    ∃ ws found files before c now g msg, Beginning m flags cmd pattern ws found files before ∧ run.said = before ++ c ∧
      Stderr.perform m regexError flags cmd pattern ws now = some c ∧
      Located.perform m flags cmd pattern ⟨ws, now, g, msg⟩ = some (run.status, run.out) ∧
      Located.AllFrom m flags cmd now ∧ (∀ f ∈ now, Rules.Searchable f.2.tree.plain) ∧
      (if usesGraph cmd = true ∧ 0 ≤ depthOf flags cmd then
        Grown m ws (searched cmd pattern) (depthOf flags cmd).toNat files (trees (Located.plainOf now))
      else files = Located.plainOf now) ∧
      ∀ f ∈ now, BuildFileOf m ws (searched cmd pattern) found files f.1 f.2.source.name := by
  obtain ⟨ran, h1, hst, hout⟩ := ran_of h
  obtain ⟨first, h2, h3⟩ := Stderr.runCommand_parts (regexError := regexError) h1
  have hfirst := about_workspace h2
  rcases h3 with ⟨g1, _, _, g2⟩ | ⟨ws, o, msg, now, g, a, b, c, g1, g2, g3, hall, g5, g6, g7, hperf, g9⟩
  · rw [g2] at h
    cases h
    exact .inl ⟨by simp [workspaceOf, g1], rfl, rfl, first, hfirst, rfl⟩
  · rw [g9] at h
    cases h
    have ho : opened m ws flags cmd pattern = some (Located.plainOf o, msg) := by
      rcases Located.opened_plain m ws flags cmd pattern with ⟨k1, _⟩ | ⟨l, msg', k1, k2, _⟩
      · rw [g2] at k1; cases k1
      · rw [g2] at k1; cases k1; exact k2
    obtain ⟨found, k1, _⟩ := opened_spec hneed ho
    obtain ⟨found', k2, k4, k3⟩ := Stderr.fill_said hneed g5
    have : found' = found := Option.some.inj (k2.symm.trans k1.files)
    subst this
    have hasc : Ascending (o.map (·.1)) := by
      have := opened_ascending ho
      simpa [Located.plainOf, List.map_map, Function.comp_def] using this
    have hkeep : ∀ f ∈ o, BuildFileOf m ws (searched cmd pattern) found' (Located.plainOf o) f.1 f.2.source.name := by
      intro f hf
      obtain ⟨name, content, e1, ast, st, e2, e3, _⟩ := (k1.each f.1 f.2.plain).1
        (List.mem_map.2 ⟨f, hf, rfl⟩)
      unfold BuildFileOf
      rw [if_pos (by
        simp only [Located.plainOf, List.map_map]
        exact List.mem_map.2 ⟨f, hf, rfl⟩)]
      refine ⟨content, ?_⟩
      rw [e1, ← e3]
      rfl
    have hkeys : ∀ pkg, lookup o pkg = none → pkg ∉ (Located.plainOf o).map (·.1) := by
      intro pkg hp
      rw [lookup_none] at hp
      simpa [Located.plainOf, List.map_map, Function.comp_def] using hp
    refine .inr ⟨ws, found', Located.plainOf o, first ++ a ++ b, c, now, g, msg, ⟨g1, k1, k4, first, b, hfirst, ?_, ?_⟩,
      rfl, g7, hperf, hall, ?_⟩
    · rw [k3]
      have hs : (Collect.searchDir ws (searched cmd pattern)).isNone = true ↔
          (searched cmd pattern).pattern.package.project ≠ [] ∧
            Workspace.findPath ws (searched cmd pattern).pattern.package.project = none := by
        unfold Collect.searchDir
        simp only
        split
        · rename_i hp
          cases Workspace.findPath ws (searched cmd pattern).pattern.package.project <;> simp [hp]
        · rename_i hp; simp [hp]
      simp only [hs]
      rfl
    · split
      · rename_i hu; exact graph_said hh ho hu.1 hu.2 g6
      · rename_i hu
        unfold Stderr.graph at g6
        rw [if_neg (by simpa using hu)] at g6
        exact (Option.some.inj g6).symm
    · by_cases hu : usesGraph cmd = true ∧ 0 ≤ depthOf flags cmd
      · rw [if_pos hu]
        obtain ⟨l, now', g', f1, f2⟩ := follow_spec hh ho hu.1 hu.2
        rcases Located.follow_plain (m := m) (ws := ws) (flags := flags) (cmd := cmd) (pattern := pattern) hasc with
          ⟨f3, _⟩ | ⟨l', g'', f3, f4, _⟩
        · rw [g3] at f3; cases f3
        · rw [g3] at f3
          cases f3
          rw [f1] at f4
          cases f4
          refine ⟨?_, ?_, ?_⟩
          · intro f hf
            refine f2.searchable (f.1, f.2.tree.plain) ?_
            rw [← f2.same, Stderr.trees_plainOf]
            exact List.mem_map.2 ⟨f, hf, rfl⟩
          · rw [f2.same]; exact f2.grown
          · intro f hf
            unfold Located.follow at g3
            rw [if_pos (by simp [hu])] at g3
            obtain ⟨r, e1, e2⟩ := Option.bind_eq_some_iff.1 g3
            obtain ⟨l3, e3, e4⟩ := Option.map_eq_some_iff.1 e2
            simp only [Prod.mk.injEq] at e4
            obtain ⟨rfl, _⟩ := e4
            obtain ⟨pkg, _, e5⟩ := Located.each_mem e3 f hf
            cases hl : lookup o pkg with
            | some f' =>
              rw [hl] at e5
              cases e5
              exact hkeep _ ((mem_lookup hasc.nodup).2 hl)
            | none =>
              rw [hl] at e5
              obtain ⟨f', e6, rfl⟩ := Option.map_eq_some_iff.1 e5
              unfold Located.added at e6
              obtain ⟨name, e7, e8⟩ := Option.bind_eq_some_iff.1 e6
              obtain ⟨content, e9, e10⟩ := Option.bind_eq_some_iff.1 e8
              obtain ⟨r', e11, e12⟩ := Option.bind_eq_some_iff.1 e10
              obtain ⟨t, e13, rfl⟩ := Option.map_eq_some_iff.1 e12
              unfold BuildFileOf
              rw [if_neg (hkeys pkg hl)]
              exact e7
      · rw [if_neg hu]
        unfold Located.follow at g3
        rw [if_neg (by simpa using hu)] at g3
        cases g3
        refine ⟨fun f hf => ?_, rfl, hkeep⟩
        refine opened_searchable hh ho (f.1, f.2.tree.plain) ?_
        rw [Stderr.trees_plainOf]
        exact List.mem_map.2 ⟨f, hf, rfl⟩

theorem place_in {m : Machine} {ws : Workspace.Map} {pattern : BazelPattern} {found : List Str} {files : Loaded}
    {now : Located.Holding} (hf : ∀ f ∈ now, ∃ evaluated, Located.From m evaluated f.1 f.2)
    (hb : ∀ f ∈ now, BuildFileOf m ws pattern found files f.1 f.2.source.name) {pkg : BazelPackage} {text loc : Str}
    (h : Stderr.At now pkg text loc) : PlaceIn m ws pattern found files pkg text loc := by
  obtain ⟨f, v, h1, h2, h3, h4⟩ := h
  obtain ⟨evaluated, hfrom⟩ := hf _ h1
  rcases h2 with ⟨pos, k1, k2, k3⟩ | ⟨b, e, k1, k2, k3, k4⟩
  · obtain ⟨b, e, e1, e2, e3, _, e5⟩ := loc_file hfrom ⟨pos, k1, k2, k3⟩ h4
    exact ⟨f.source.name, f.source.content, b, e, hb _ h1, hfrom.content, e2, e3, .inl (e5.trans h3), e1⟩
  · exact ⟨f.source.name, f.source.content, b, e, hb _ h1, hfrom.content, k2, k3, .inr k4,
      loc_made hfrom k1 k2 k3 h4⟩

/-! ## C116 -/

/-- **C116**: all that is written to standard error. -/
theorem C116_said {m : Machine} (hh : Healthy m) {regexError : Str → Str} {flags : Flags} {cmd : Command}
    {pattern : BazelPattern} (hneed : needsProject cmd pattern = true) {run : Stderr.Run}
    (h : Stderr.runCommand m regexError flags cmd pattern = some run) :
    (workspaceOf m = none ∧ run.status = 1 ∧ run.out = [] ∧ ∃ first, AboutWorkspace m.fs first ∧
      run.said = first ++ [.session c!"Didn't find any workspace file. Is this a bazel project root ?\n"]) ∨
    ∃ ws found files before after, Beginning m flags cmd pattern ws found files before ∧ run.said = before ++ after ∧
      (cmd ∉ [.genruleOutputs, .dwyu, .canonicalizeDeps] → after =
        if flags.grep ≠ [] ∧ m.regex flags.grep = none ∧
            (cmd = .print ∨ cmd = .parse ∧ (flags.printAst = true ∨ flags.onlyErrors = true)) then
          [.direct (c!"Grep pattern: " ++ regexError flags.grep ++ c!"\n")]
        else []) := by
  rcases said_parts hh hneed h with h | ⟨ws, found, files, before, c, now, g, msg, h1, h2, h3, _⟩
  · exact .inl h
  · refine .inr ⟨ws, found, files, before, c, h1, h2, fun hcmd => ?_⟩
    unfold Stderr.perform at h3
    cases cmd
    case parse =>
      simp only [Option.some.injEq] at h3
      subst h3
      by_cases h4 : flags.printAst = true ∨ flags.onlyErrors = true
      · simp [h4]
      · simp [h4]
    all_goals simp_all

/-! ## C117 -/

/-- **C117**, full statement: for each project that is declared in the files of the workspace and is in none of the
directories where it may be, there is a line that says so. -/
def C117_statement : Prop :=
  ∀ (m : Machine) (regexError : Str → Str) (flags : Flags) (cmd : Command) (pattern : BazelPattern) (run : Stderr.Run),
    Stderr.runCommand m regexError flags cmd pattern = some run →
    ∀ f ∈ [c!"WORKSPACE", c!"WORKSPACE.bazel", c!"WORKSPACE.bzlmod", c!"MODULE.bazel"], ∀ r ∈ absentIn m.fs f,
      ∃ text, .session text ∈ run.said ∧ c!" Can't find extracted project '" ++ r.name ++ c!"'\n" <:+ text

/-- A project with a file `MODULE.bazel`. -/
def module (text : Str) : Machine := disk [(c!"MODULE.bazel", text), (c!"p/BUILD", c!"cc_library(name='a')")]

/-- Nothing is said: there is no such project in the files of the old kind. -/
theorem C117_counterexample : ¬ C117_statement := by
  intro hs
  have h1 : Stderr.runCommand (module c!"bazel_dep(name='x')") (fun _ => []) {} .parse everything =
      some ⟨0, [], []⟩ := by decide +kernel
  have h2 : (absentIn (module c!"bazel_dep(name='x')").fs c!"MODULE.bazel").map (·.name) = [c!"x"] := by decide +kernel
  obtain ⟨r, hr⟩ : ∃ r, r ∈ absentIn (module c!"bazel_dep(name='x')").fs c!"MODULE.bazel" := by
    cases hl : absentIn (module c!"bazel_dep(name='x')").fs c!"MODULE.bazel" with
    | nil => rw [hl] at h2; cases h2
    | cons r _ => exact ⟨r, .head _⟩
  obtain ⟨text, ht, _⟩ := hs _ _ _ _ _ _ h1 c!"MODULE.bazel" (by simp) r hr
  cases ht

/-- **C117**, part of it: whatever is done, first the errors of the parser in files of the workspace are said; and if there
are absent projects in files of the old and of the new kind, then all absent projects are, each with the location where its
name is, with a note after these. -/
theorem C117_absent_partial {m : Machine} {regexError : Str → Str} {flags : Flags} {cmd : Command}
    {pattern : BazelPattern} {run : Stderr.Run} (h : Stderr.runCommand m regexError flags cmd pattern = some run) :
    ∃ first rest, run.said = first ++ rest ∧ AboutWorkspace m.fs first := by
  obtain ⟨ran, h1, _⟩ := ran_of h
  obtain ⟨first, h2, h3⟩ := Stderr.runCommand_parts (regexError := regexError) h1
  have hfirst := about_workspace h2
  rcases h3 with ⟨_, _, _, g⟩ | ⟨_, _, _, _, _, _, _, _, _, _, _, _, _, _, _, _, g⟩
  · rw [g] at h
    cases h
    exact ⟨first, _, rfl, hfirst⟩
  · rw [g] at h
    cases h
    exact ⟨first, _, by simp only [List.append_assoc]; rfl, hfirst⟩

/-! ## C118 -/

/-- **C118**: with `-v`, it is said which packages and which targets are not found when dependencies are followed: these
are the packages without a BUILD file, and the targets that no rule defines, of all that is reached. -/
theorem C118_not_found {m : Machine} (hh : Healthy m) {regexError : Str → Str} {flags : Flags} {cmd : Command}
    {pattern : BazelPattern} (hneed : needsProject cmd pattern = true) (hu : usesGraph cmd = true)
    (hd : 0 ≤ depthOf flags cmd) (hv : 0 < flags.verbose) {run : Stderr.Run}
    (h : Stderr.runCommand m regexError flags cmd pattern = some run) {ws : Workspace.Map}
    (hws : workspaceOf m = some ws) :
    ∃ found files before after packages targets,
      OpenedFor m ws (evaluates flags cmd) (searched cmd pattern) found files ∧
      run.said = before ++
        ((if packages = [] then [] else [.session (c!"Dependcy graph: Did not find these packages\n" ++
          (packages.flatMap fun p : BazelPackage => c!"\t" ++ p.toString ++ c!"\n") ++ c!"\n")]) ++
        if targets = [] then [] else [.session (c!"Dependency graph: Did not find these targets\n" ++
          (targets.flatMap fun t : BazelTarget => c!"\t" ++ t.toString ++ c!"\n") ++ c!"\n")]) ++ after ∧
      packages.Nodup ∧ targets.Nodup ∧
      (∀ pkg, pkg ∈ packages ↔ pkg ∉ files.map (·.1) ∧ DepGraph.pathForPackage (world m ws) pkg = none ∧
        ∃ t, Reached m ws (searched cmd pattern) (depthOf flags cmd).toNat files t ∧ t.package = pkg) ∧
      ∀ t, t ∈ targets ↔ Reached m ws (searched cmd pattern) (depthOf flags cmd).toNat files t ∧
        ∀ r, ¬ Defines (world m ws) (trees files) t r := by
  rcases said_parts hh hneed h with ⟨h1, _⟩ | ⟨ws', found, files, before, c, now, g, msg, h1, h2, _⟩
  · rw [hws] at h1; cases h1
  · have hw := h1.workspace
    rw [hws] at hw
    cases hw
    obtain ⟨first, b, _, h3, h4⟩ := h1.said_eq
    rw [if_pos ⟨hu, hd⟩] at h4
    obtain ⟨news, packages, targets, now', g', h5⟩ := h4
    have h6 := h5.said_eq
    rw [if_pos (by simpa using hv)] at h6
    have heq : ∀ (title : Str) (xs : List Str), (listed title xs).map Said.session =
        if xs = [] then [] else [.session (title ++ (xs.flatMap fun x => c!"\t" ++ x ++ c!"\n") ++ c!"\n")] := by
      intro title xs
      unfold listed
      split <;> rfl
    simp only [List.map_append, heq, List.map_eq_nil_iff, List.flatMap_map] at h6
    exact ⟨found, files, _, _, packages, targets, h1.opened,
      by rw [h2, h3, h6]; simp only [List.append_assoc]; rw [← List.append_assoc, ← List.append_assoc],
      Ascending.nodup h5.packages_order, Ascending.nodup h5.targets_order, h5.packages_iff, h5.targets_iff⟩

/-! ## C119 -/

/-- The text, whichever stream it is written to. -/
def textOf : Said → Str
  | .session text => text
  | .direct text => text

/-- Whether it is written with `-q`, too. -/
def isDirect : Said → Bool
  | .session _ => false
  | .direct _ => true

theorem shown_loud (l : List Said) : l.flatMap (·.shown false) = l.flatMap textOf :=
  congrArg (l.flatMap ·) (funext fun x => by cases x <;> rfl)

theorem shown_quiet (l : List Said) : l.flatMap (·.shown true) = (l.filter isDirect).flatMap textOf := by
  induction l with
  | nil => rfl
  | cons x l ih =>
    rw [List.flatMap_cons, ih]
    cases x <;> rfl

/-- The same, but for `-q`. -/
def hush (s : Setup) : Setup := { s with quiet := true }

def hushed : Cli.Step → Cli.Step
  | .go s => .go (hush s)
  | .exit s status err => .exit (hush s) status err
  | .undefined => .undefined

theorem hushed_ite {p : Prop} [Decidable p] {a b a' b' : Cli.Step} (ha : a' = hushed a) (hb : b' = hushed b) :
    (if p then a' else b') = hushed (if p then a else b) := by
  split <;> assumption

theorem option_quiet (env : Env) (s : Setup) (o : Opt) : option env (hush s) o = hushed (option env s o) := by
  cases o with
  | bad => rfl
  | opt c arg =>
    unfold option
    refine hushed_ite ?_ <| hushed_ite rfl <| hushed_ite ?_ <| hushed_ite ?_ <| hushed_ite rfl <| hushed_ite ?_ <|
      hushed_ite rfl <| hushed_ite rfl <| hushed_ite rfl <| hushed_ite rfl <| hushed_ite ?_ <| hushed_ite rfl <|
      hushed_ite rfl rfl
    · cases arg with
      | none => rfl
      | some dir => exact hushed_ite rfl rfl
    · cases arg with
      | none => rfl
      | some file => exact hushed_ite rfl (hushed_ite rfl rfl)
    · cases arg with
      | none => rfl
      | some n => simp only; cases atoi n <;> rfl
    · cases arg <;> rfl
    · cases arg with
      | none => rfl
      | some n => simp only; cases findFormat n <;> rfl

theorem options_quiet (env : Env) (os : List Opt) : ∀ s : Setup, options env (hush s) os = hushed (options env s os) := by
  induction os with
  | nil => intro s; rfl
  | cons o os ih =>
    intro s
    simp only [options, option_quiet]
    cases option env s o with
    | go s => exact ih s
    | exit s st e => rfl
    | undefined => rfl

theorem notes_quiet (env : Env) (os : List Opt) : ∀ s : Setup, Stderr.notes env (hush s) os = Stderr.notes env s os := by
  induction os with
  | nil => intro s; rfl
  | cons o os ih =>
    intro s
    simp only [Stderr.notes, option_quiet]
    cases option env s o with
    | go s => simp only [hushed, ih s]
    | exit s st e => rfl
    | undefined => rfl

/-- **C119**: with `-q` (before the other arguments) a run does the same, and ends in the same way. On standard error, just
what is said by the session is missing. -/
theorem C119_quiet (env : Env) (w : Stderr.World) (args : List Str) :
    (Stderr.bant env w args = none → Stderr.bant env w (c!"-q" :: args) = none) ∧
    ∀ o, Stderr.bant env w args = some o → ∃ l : List Said,
      Stderr.bant env w (c!"-q" :: args) = some { o with err := (l.filter isDirect).flatMap textOf } ∧
      ((∀ x ∈ (getopt optstring args).1, CliSpec.is 'q' x = false) → o.err = l.flatMap textOf) ∧
      ∀ flags cmd pattern, o.ran = some (flags, cmd, pattern) → ∃ cd run before after,
        Stderr.runCommand (w.machine cd) w.regexError flags cmd pattern = some run ∧ l = before ++ run.said ++ after := by
  have hget : getopt optstring (c!"-q" :: args) =
      (.opt 'q' none :: (getopt optstring args).1, (getopt optstring args).2) := rfl
  have hopts : options env {} (.opt 'q' none :: (getopt optstring args).1) =
      options env (hush {}) (getopt optstring args).1 := rfl
  have hnotes : Stderr.notes env {} (.opt 'q' none :: (getopt optstring args).1) =
      Stderr.notes env (hush {}) (getopt optstring args).1 := rfl
  unfold Stderr.bant
  rw [hget]
  simp only [hopts, hnotes, options_quiet, notes_quiet]
  generalize hN : Stderr.notes env {} (getopt optstring args).1 = notes
  cases ho : options env {} (getopt optstring args).1 with
  | undefined => exact ⟨fun _ => rfl, fun o h => by cases h⟩
  | exit s status err =>
    refine ⟨fun h => (by cases h), fun o h => ?_⟩
    cases h
    exact ⟨[.direct (notes ++ err)], by simp [isDirect, textOf, hushed, hush, List.filter], fun _ => by simp [textOf],
      fun flags cmd pattern h => by cases h⟩
  | go s =>
    have hq : (∀ x ∈ (getopt optstring args).1, CliSpec.is 'q' x = false) → s.quiet = false := by
      intro hn
      rw [(options_effects ho).quiet]
      simpa using hn
    have hcd : (hush s).cd = s.cd := rfl
    have hfin : finishGrep (hush s) = finishGrep s := rfl
    simp only [hushed, hfin, hcd]
    cases hc : choose (getopt optstring args).2 with
    | stop status message =>
      refine ⟨fun h => (by cases h), fun o h => ?_⟩
      cases h
      refine ⟨[.direct notes, .session message] ++
        (if status = 2 then [.session c!"\n\n", .direct env.help]
          else if (finishGrep s).verbose > 0 then [.direct (w.stats s.cd (finishGrep s) (.stop status message))] else []),
        ?_, fun hn => ?_, fun flags cmd pattern h => by cases h⟩
      · by_cases h2 : status = 2
        · simp [h2, isDirect, textOf, Said.shown, hush, List.filter]
        · by_cases h3 : (finishGrep s).verbose > 0 <;> simp [h2, h3, isDirect, textOf, Said.shown, hush, List.filter]
      · by_cases h2 : status = 2
        · simp [h2, textOf, Said.shown, hq hn]
        · by_cases h3 : (finishGrep s).verbose > 0 <;> simp [h2, h3, textOf, Said.shown, hq hn]
    | run cmd pattern =>
      simp only
      cases hr : Stderr.runCommand (w.machine s.cd) w.regexError (finishGrep s) cmd pattern with
      | none => exact ⟨fun _ => rfl, fun o h => by cases h⟩
      | some r =>
        refine ⟨fun h => (by cases h), fun o h => ?_⟩
        cases h
        refine ⟨[.direct notes] ++ r.said ++
          (if r.status = 2 then [.session c!"\n\n", .direct env.help]
            else if (finishGrep s).verbose > 0 then [.direct (w.stats s.cd (finishGrep s) (.run cmd pattern))] else []),
          ?_, fun hn => ?_, fun flags cmd' pattern' h => ?_⟩
        · by_cases h2 : r.status = 2
          · simp [h2, isDirect, textOf, Said.shown, hush, List.filter, ← shown_quiet]
          · by_cases h3 : (finishGrep s).verbose > 0 <;> simp [h2, h3, isDirect, textOf, Said.shown, hush, List.filter, ← shown_quiet]
        · by_cases h2 : r.status = 2
          · simp [h2, textOf, Said.shown, hq hn, ← shown_loud]
          · by_cases h3 : (finishGrep s).verbose > 0 <;> simp [h2, h3, textOf, Said.shown, hq hn, ← shown_loud]
        · cases h
          exact ⟨s.cd, r, _, _, hr, rfl⟩

/-! ## C120 -/

/-- **C120**: `canonicalize` says, after what is said before any command, which dependencies of the rules are no targets:
one line for each of them, in the order of files and rules, with the location of the dependency. -/
theorem C120_invalid {m : Machine} (hh : Healthy m) {regexError : Str → Str} {flags : Flags} {pattern : BazelPattern}
    {run : Stderr.Run} (h : Stderr.runCommand m regexError flags .canonicalizeDeps pattern = some run)
    {ws : Workspace.Map} (hws : workspaceOf m = some ws) :
    ∃ found files before, ∃ lines : List (Str × BazelTarget × Str),
      Beginning m flags .canonicalizeDeps pattern ws found files before ∧
      run.said = before ++
        (lines.map fun x => .session (x.1 ++ c!" Invalid target name '" ++ x.2.2 ++ c!"'\n")) ∧
      lines.map (·.2) = (matchingDeps pattern (trees files)).filter
        (fun x => (BazelTarget.parseFrom x.2 x.1.package).isNone) ∧
      ∀ x ∈ lines, PlaceIn m ws pattern found files x.2.1.package x.2.2 x.1 := by
  rcases said_parts hh (by simp [needsProject]) h with
    ⟨h1, _⟩ | ⟨ws', found, files, before, c, now, g, msg, h1, h2, h3, _, h5, h6, h7, h8⟩
  · rw [hws] at h1; cases h1
  have hw := h1.workspace
  rw [hws] at hw
  cases hw
  have hfrom : ∀ f ∈ now, ∃ evaluated, Located.From m evaluated f.1 f.2 := fun f hf => by
    obtain ⟨ev, h, _⟩ := h5.files f hf
    exact ⟨ev, h⟩
  rw [if_neg (by simp [usesGraph])] at h7
  simp only [Stderr.perform] at h3
  obtain ⟨said, h9, rfl⟩ := Option.map_eq_some_iff.1 h3
  obtain ⟨lines, rfl, h10, h11⟩ := Stderr.canonicalize_lines hfrom h6 h9
  refine ⟨found, files, before, lines, h1, ?_, ?_, fun x hx => ?_⟩
  · rw [h2, List.map_map]; rfl
  · rw [h10, h7]
  · exact place_in hfrom h8 (h11 x hx)

/-! ## C121 -/

/-- **C121**: `genrule-outputs` says of which outputs of the main project another rule is the maker: one line for each
output of a rule that is not the first one that makes that file, with the location of the output. -/
theorem C121_also_created {m : Machine} (hh : Healthy m) {regexError : Str → Str} {flags : Flags} {pattern : BazelPattern}
    {run : Stderr.Run} (h : Stderr.runCommand m regexError flags .genruleOutputs pattern = some run)
    {ws : Workspace.Map} (hws : workspaceOf m = some ws) :
    ∃ found files before, ∃ lines : List (Str × BazelTarget × Str), ∃ now,
      Beginning m flags .genruleOutputs pattern ws found files before ∧
      (if 0 ≤ depthOf flags .genruleOutputs then
        Grown m ws pattern (depthOf flags .genruleOutputs).toNat files now else now = trees files) ∧
      lines.map (·.2) = makes now ∧
      run.said = before ++ (lines.filterMap fun x => aboutOutput (makes now) x.1 x.2.1 x.2.2).map .session ∧
      ∀ x ∈ lines, PlaceIn m ws pattern found files x.2.1.package x.2.2 x.1 := by
  rcases said_parts hh (by simp [needsProject]) h with
    ⟨h1, _⟩ | ⟨ws', found, files, before, c, now, g, msg, h1, h2, h3, _, h5, h6, h7, h8⟩
  · rw [hws] at h1; cases h1
  have hw := h1.workspace
  rw [hws] at hw
  cases hw
  have hfrom : ∀ f ∈ now, ∃ evaluated, Located.From m evaluated f.1 f.2 := fun f hf => by
    obtain ⟨ev, h, _⟩ := h5.files f hf
    exact ⟨ev, h⟩
  simp only [Stderr.perform] at h3
  obtain ⟨said, h9, rfl⟩ := Option.map_eq_some_iff.1 h3
  obtain ⟨lines, h10, h11, h12⟩ := Stderr.genrules_lines hfrom h6 h9
  refine ⟨found, files, before, lines, trees (Located.plainOf now), h1, ?_, h11, ?_, fun x hx => ?_⟩
  · by_cases hd : 0 ≤ depthOf flags .genruleOutputs
    · rw [if_pos ⟨rfl, hd⟩] at h7
      rw [if_pos hd]
      exact h7
    · rw [if_neg (by simp [hd])] at h7
      rw [if_neg hd, h7]
  · rw [h2, ← h10, List.map_map]; rfl
  · exact place_in hfrom h8 (h12 x hx)

/-! ## C122 -/

/-- The locations of a rule of which something is said: of its name, its sources and its dependencies. -/
structure RulePlaces (m : Machine) (ws : Workspace.Map) (pattern : BazelPattern) (found : List Str) (files : Loaded)
    (now : Files) (pkg : BazelPackage) (r : Query.Result) (target : BazelTarget) (p : Dwyu.Places) : Prop where
  name : PlaceIn m ws pattern found files pkg r.name (p.name r target)
  source : ∀ n s, (DwyuSpec.sourcesOf r)[n]? = some s → PlaceIn m ws pattern found files pkg s (p.source r target n)
  dep : ∀ n s, (Rules.stringsOf r.deps)[n]? = some s → PlaceIn m ws pattern found files pkg s (p.dep r target n)
  known : ∀ r', DwyuSpec.Library now target r' → PlaceIn m ws pattern found files pkg r'.name (p.known target)

/-- **C122**: what `dwyu` says, after what is said before any command and about outputs (as in C121): for each rule of the
pattern, in order, just what there is to be said about it (C105 to C107), with locations that are right; in the end, for how
many rules, and how many lines are on standard output. -/
theorem C122_dwyu {m : Machine} (hh : Healthy m) {regexError : Str → Str} {flags : Flags} {pattern : BazelPattern}
    {run : Stderr.Run} (h : Stderr.runCommand m regexError flags .dwyu pattern = some run)
    {ws : Workspace.Map} (hws : workspaceOf m = some ws) :
    ∃ (found : List Str) (files : Loaded) (before : List Said) (now : Files) (lines : List (Str × BazelTarget × Str))
      (near : Str → Option Str) (edits : List Edit)
      (per : List ((BazelPackage × Query.Result × BazelTarget) × List Dwyu.Message)),
      Beginning m flags .dwyu pattern ws found files before ∧
      (if 0 ≤ depthOf flags .dwyu then Grown m ws pattern (depthOf flags .dwyu).toNat files now
        else now = trees files) ∧
      lines.map (·.2) = makes now ∧ (∀ x ∈ lines, PlaceIn m ws pattern found files x.2.1.package x.2.2 x.1) ∧
      run.out = buildozerScript edits ∧ per.map (·.1) = DwyuSpec.selected now pattern ∧
      run.said = before ++ (lines.filterMap fun x => aboutOutput (makes now) x.1 x.2.1 x.2.2).map .session ++
        (per.flatMap fun x => x.2.map fun msg => .session msg.text) ++
        [.session (c!"Checked DWYU on " ++ showInt per.length ++ c!" targets." ++
          (if edits = [] then [] else c!" Emitted " ++ showInt edits.length ++ c!" edits.") ++ c!"\n")] ∧
      DwyuSpec.Reading now near ∧
      ∀ x ∈ per, ∃ places line its sets needed removed libs,
        RulePlaces m ws pattern found files now x.1.1 x.1.2.1 x.1.2.2 places ∧
        DwyuSpec.Account now ⟨m.fs.content, ws, line, flags.ignoreKeep⟩ x.1.1 x.1.2.1 x.1.2.2 its sets needed removed
          libs ∧
        ∀ msg, msg ∈ x.2 ↔ DwyuSpec.Says now ⟨m.fs.content, ws, line, flags.ignoreKeep⟩
          ⟨flags.verbose, m.color, places⟩ near x.1.1 x.1.2.1 x.1.2.2 needed msg := by
  rcases said_parts hh (by simp [needsProject]) h with
    ⟨h1, _⟩ | ⟨ws', found, files, before, c, now, g, msg, h1, h2, h3, h4, h5, h6, h7, h8⟩
  · rw [hws] at h1; cases h1
  have hw := h1.workspace
  rw [hws] at hw
  cases hw
  have hfrom : ∀ f ∈ now, ∃ evaluated, Located.From m evaluated f.1 f.2 := fun f hf => by
    obtain ⟨ev, h, _⟩ := h5.files f hf
    exact ⟨ev, h⟩
  simp only [Stderr.perform] at h3
  obtain ⟨ms, h9, rfl⟩ := Option.map_eq_some_iff.1 h3
  obtain ⟨near, first, edits, per, k1, k2, k3, k4, rfl, k6⟩ := Stderr.dwyu_said h5.order.nodup hfrom h6 h9
  obtain ⟨lines, h10, h11, h12⟩ := Stderr.genrules_lines hfrom h6 k2
  simp only [Located.perform, Commands.edits, k3, Option.map_some, Option.some.injEq, Prod.mk.injEq] at h4
  refine ⟨found, files, before, trees (Located.plainOf now), lines, near, edits, per, h1, ?_, h11,
    fun x hx => place_in hfrom h8 (h12 x hx), h4.2.symm, k4, ?_, k1, fun x hx => ?_⟩
  · by_cases hd : 0 ≤ depthOf flags .dwyu
    · rw [if_pos ⟨rfl, hd⟩] at h7
      rw [if_pos hd]
      exact h7
    · rw [if_neg (by simp [hd])] at h7
      rw [if_neg hd, h7]
  · rw [h2, ← h10]
    have hlast : (Dwyu.Message.checked per.length edits.length).text = c!"Checked DWYU on " ++ showInt per.length ++
        c!" targets." ++ (if edits = [] then [] else c!" Emitted " ++ showInt edits.length ++ c!" edits.") ++ c!"\n" := by
      cases edits <;> rfl
    rw [← hlast]
    simp only [List.map_append, List.map_map, List.map_flatMap, List.append_assoc, List.map_cons, List.map_nil]
    rfl
  · obtain ⟨places, line, its, sets, needed, removed, libs, p1, p2, p3⟩ := k6 x hx
    exact ⟨places, line, its, sets, needed, removed, libs,
      ⟨place_in hfrom h8 p1.name, fun n s hn => place_in hfrom h8 (p1.source n s hn),
        fun n s hn => place_in hfrom h8 (p1.dep n s hn), fun r hr => place_in hfrom h8 (p1.known r hr)⟩, p2, p3⟩

/-! ## C115 -/

/-- **C115**: `parse` writes nothing to standard error (without options that ask for more) iff there is a workspace whose
files have no syntax errors; no project is absent that is declared in the old and the new kind of files; at least one BUILD
file is found for the pattern; and each of these can be read, is the only one of its package, and has no syntax error, as
is the case for the files of all dependencies that are followed. -/
theorem C115_silent {m : Machine} (hh : Healthy m) {regexError : Str → Str} {flags : Flags} {pattern : BazelPattern}
    (h1 : flags.verbose = 0) (h2 : flags.printAst = false) (h3 : flags.onlyErrors = false) {run : Stderr.Run}
    (h : Stderr.runCommand m regexError flags .parse pattern = some run) :
    run.said = [] ↔
      (∀ f ∈ [c!"WORKSPACE", c!"WORKSPACE.bazel", c!"WORKSPACE.bzlmod", c!"MODULE.bazel"], ∀ text,
        m.fs.content f = some text → ¬ Malformed text) ∧
      ¬ ((∃ f ∈ [c!"WORKSPACE", c!"WORKSPACE.bazel"], absentIn m.fs f ≠ []) ∧
        ∃ f ∈ [c!"WORKSPACE.bzlmod", c!"MODULE.bazel"], absentIn m.fs f ≠ []) ∧
      ∃ ws found files, workspaceOf m = some ws ∧ OpenedFor m ws flags.elaborate pattern found files ∧ found ≠ [] ∧
        (∀ f ∈ found, ∃ text, m.fs.content f = some text ∧ ¬ Malformed text) ∧
        (found.map fun f => Collect.packageOf ws f pattern.pattern.package.project).Nodup ∧
        (0 ≤ flags.depth → ∀ t path text, Reached m ws pattern flags.depth.toNat files t →
          t.package ∉ files.map (·.1) → DepGraph.pathForPackage (world m ws) t.package = some path →
          m.fs.content path = some text → ¬ Malformed text) := by
  have hfirst : ∀ first, AboutWorkspace m.fs first → (first = [] ↔
      (∀ f ∈ [c!"WORKSPACE", c!"WORKSPACE.bazel", c!"WORKSPACE.bzlmod", c!"MODULE.bazel"], ∀ text,
        m.fs.content f = some text → ¬ Malformed text) ∧
      ¬ ((∃ f ∈ [c!"WORKSPACE", c!"WORKSPACE.bazel"], absentIn m.fs f ≠ []) ∧
        ∃ f ∈ [c!"WORKSPACE.bzlmod", c!"MODULE.bazel"], absentIn m.fs f ≠ [])) := by
    rintro first ⟨lines, e1, e2, e3⟩
    rw [e3, List.append_eq_nil_iff, List.map_eq_nil_iff, List.flatMap_eq_nil_iff]
    refine and_congr ?_ ?_
    · exact forall_congr' fun f => forall_congr' fun _ => Stderr.textsFor_nil
    · have hne : ∀ l : List Str, l.flatMap (absentIn m.fs) ≠ [] ↔ ∃ f ∈ l, absentIn m.fs f ≠ [] := by
        intro l; rw [ne_eq, List.flatMap_eq_nil_iff]; simp
      rw [← hne, ← hne]
      split
      · rename_i hc; exact iff_of_false (by simp) fun k => k hc
      · rename_i hc; exact iff_of_true rfl hc
  have heval : evaluates flags .parse = flags.elaborate := by simp [evaluates]
  have hsearch : searched .parse pattern = pattern := by simp [searched]
  rcases C116_said hh (by simp [needsProject]) h with ⟨g1, _, _, first, _, g2⟩ |
    ⟨ws, found, files, before, c, ⟨g1, g2, g3, first, b, h4, rfl, g5⟩, g4, g7⟩
  · rw [g2, g1]
    simp
  · rw [heval, hsearch] at g2
    rw [hsearch] at g3 g4 g5
    have hfirst := hfirst first h4
    obtain rfl : c = [] := by simpa [h2, h3] using g7 (by simp)
    have hb : b = [] ↔ (0 ≤ flags.depth → ∀ t path text, Reached m ws pattern flags.depth.toNat files t →
          t.package ∉ files.map (·.1) → DepGraph.pathForPackage (world m ws) t.package = some path →
          m.fs.content path = some text → ¬ Malformed text) := by
      have hdep : depthOf flags .parse = flags.depth := by simp [depthOf]
      rw [hdep] at g5
      by_cases hd : 0 ≤ flags.depth
      · rw [if_pos ⟨rfl, hd⟩] at g5
        obtain ⟨news, packages, targets, now, g, hn⟩ := g5
        rw [hn.said_eq, if_neg (by simp [h1]), List.append_nil, List.flatMap_eq_nil_iff]
        constructor
        · intro hx _ t path text hr hnin hp hc
          have := hx t.package ((hn.news_iff _).2 ⟨hnin, by simp [hp], t, hr, rfl⟩)
          rw [hp] at this
          simp only [List.map_eq_nil_iff] at this
          exact Stderr.textsFor_nil.1 this text hc
        · intro hx pkg hpkg
          obtain ⟨hnin, _, t, hr, rfl⟩ := (hn.news_iff _).1 hpkg
          cases hp : DepGraph.pathForPackage (world m ws) t.package with
          | none => rfl
          | some path =>
            simp only [List.map_eq_nil_iff]
            exact Stderr.textsFor_nil.2 fun text hc => hx hd t path text hr hnin hp hc
      · rw [if_neg (by simp [hd])] at g5
        simp [g5, hd]
    rw [g4, List.append_nil, List.append_eq_nil_iff, List.append_eq_nil_iff, hfirst, hb, and_assoc, and_assoc]
    refine and_congr_right fun _ => and_congr_right fun _ => ?_
    have hpat : aboutPattern m ws pattern found = [] ↔ found ≠ [] ∧
        (∀ f ∈ found, ∃ text, m.fs.content f = some text ∧ ¬ Malformed text) ∧
        (found.map fun f => Collect.packageOf ws f pattern.pattern.package.project).Nodup := by
      unfold aboutPattern
      simp only [List.append_eq_nil_iff, Stderr.aboutAll_nil (before := []) g3 (fun _ h => nomatch h)]
      constructor
      · rintro ⟨⟨_, k1, k2, _⟩, k3⟩
        exact ⟨by rintro rfl; simp at k3, k1, k2⟩
      · rintro ⟨k0, k1, k2⟩
        refine ⟨⟨?_, k1, k2, by simp⟩, by rw [if_neg k0]⟩
        rw [if_neg]
        rintro ⟨k4, k5⟩
        obtain ⟨f, hf⟩ := List.exists_mem_of_ne_nil _ k0
        obtain ⟨pkg, hp⟩ := g3 f hf
        unfold Collect.packageOf at hp
        rw [if_neg k4, k5] at hp
        cases hp
    rw [hpat]
    constructor
    · rintro ⟨⟨k0, k1, k2⟩, k3⟩
      exact ⟨ws, found, files, g1, g2, k0, k1, k2, k3⟩
    · rintro ⟨ws', found', files', j1, j2, k0, k1, k2, k3⟩
      rw [g1] at j1
      cases j1
      obtain ⟨rfl, rfl⟩ := openedFor_unique j2 g2
      exact ⟨⟨k0, k1, k2⟩, k3⟩

/-! ## Examples -/

/-- What is said, with what is seen of it. -/
def saidBy (r : Option Stderr.Run) : Option (Nat × Str × Str × Str) :=
  r.map fun r => (r.status, r.out, r.said.flatMap textOf, (r.said.filter isDirect).flatMap textOf)

def run (texts : List (Str × Str)) (flags : Flags) (cmd : Command) (pattern : BazelPattern) :
    Option (Nat × Str × Str × Str) :=
  saidBy (Stderr.runCommand (disk texts) (fun _ => c!"missing )") flags cmd pattern)

/-- C115: silence. -/
example : run [(c!"p/BUILD", c!"cc_library(name='a')")] {} .parse everything = some (0, [], [], []) := by decide +kernel
/-- C116: a syntax error, and two files for a package. -/
example : run [(c!"p/BUILD", c!"cc_library(name='a')\nx = ["), (c!"p/BUILD.bazel", [])] {} .parse everything =
    some (0, [], c!"./p/BUILD:2:6: got ''; expected value of sorts\n" ++
      c!"./p/BUILD.bazel: Package //p already seen before in ./p/BUILD\n", []) := by decide +kernel
/-- A syntax error in the file of a dependency. -/
example : run [(c!"p/BUILD", c!"cc_library(name='a',deps=['//q'])"), (c!"q/BUILD", c!"=")] (steps 1) .parse
    (pat c!"//p/...") = some (0, [], c!"q/BUILD:1:1: got '='; expected identifier, got ('=')\n", []) := by decide +kernel
/-- No workspace. -/
example : saidBy (Stderr.runCommand { disk [] with fs := ⟨fun _ => false, fun _ => false, fun _ => none, fun _ => []⟩ }
      (fun _ => []) {} .parse everything) =
    some (1, [], c!"Didn't find any workspace file. Is this a bazel project root ?\n", []) := by decide +kernel
/-- A regular expression that is none. -/
example : run [(c!"p/BUILD", c!"cc_library(name='a')")] { grep := c!"(x" } .print everything =
    some (0, [], c!"Grep pattern: missing )\n", c!"Grep pattern: missing )\n") := by decide +kernel
example : run [(c!"p/BUILD", c!"cc_library(name='a')")] {} .parse (pat c!"@foo//...") =
    some (0, [], c!"Unknown project @foo.\nPattern did not match any dir with BUILD file.\n",
      c!"Unknown project @foo.\n") := by decide +kernel
/-- C117: declared in both kinds of files. -/
example : run [(c!"MODULE.bazel", c!"bazel_dep(name='x')"), (c!"WORKSPACE.bazel", c!"\nhttp_archive(name='y')"),
      (c!"p/BUILD", [])] {} .parse everything =
    some (0, [], c!"WORKSPACE.bazel:2:20: Can't find extracted project 'y'\n" ++
      c!"MODULE.bazel:1:17: Can't find extracted project 'x'\n" ++
      c!"Note: need to run a bazel build at least once to extract external projects\n", []) := by decide +kernel
/-- C118: a package without BUILD file, and a target that is not defined. -/
example : run [(c!"p/BUILD", c!"cc_library(name='a',deps=['//q:x','//r:y'])"), (c!"q/BUILD", c!"x(name='z')")]
      { verbose := 1, depth := 1 } .parse (pat c!"//p/...") =
    some (0, [], c!"Dependcy graph: Did not find these packages\n\t//r\n\n" ++
      c!"Dependency graph: Did not find these targets\n\t//q:x\n\t//r:y\n\n" ++
      c!"Dependency graph expanded build file# from initial 1 to 2; 1 targets and 2 that depend on these.\n", []) := by
  decide +kernel
/-- C120: two that are no targets; the second is made by `+`. -/
example : run [(c!"p/BUILD", c!"cc_library(name='a',deps=['::','//q:x'])"), (c!"q/BUILD", c!"x(name='b',deps=[':'+'c:'])")]
      { elaborate := true } .canonicalizeDeps everything =
    some (0, [], c!"./p/BUILD:1:28-29: Invalid target name '::'\n./q/BUILD:1:21: Invalid target name ':c:'\n", []) := by
  decide +kernel
/-- C121. -/
example : run [(c!"p/BUILD", c!"genrule(name='a',outs=['x.h'])\ngenrule(name='b',outs=['y.h','x.h'])")] {}
      .genruleOutputs everything =
    some (0, c!"p/x.h //p:a\np/y.h //p:b\n", c!"./p/BUILD:2:31-33: 'p/x.h' in //p:b also created by //p:a\n", []) := by
  decide +kernel
/-- C122: with `-v -v`. -/
example : run [(c!"p/BUILD", c!"cc_library(name='t',hdrs=['x.h'],testonly=True)\ngenrule(name='g',outs=['m.cc'])\ncc_library(name='l',srcs=['l.cc','m.cc'],\n deps=['x:::',':u'])"),
      (c!"p/l.cc", c!"#include \"p/x.h\"\n#include \"q.h\"\n#include \"y/p/x.h\"\n"), (c!"p/x.h", [])]
      { verbose := 2 } .dwyu everything =
    some (0, [], c!"Dependency graph: Did not find these targets\n\t//p:u\n\n" ++
      c!"Dependency graph expanded build file# from initial 1 to 1; 3 targets and 1 that depend on these.\n" ++
      c!"p/l.cc:2:11-13: unknown provider for q.h -- Missing or from non-standard bazel-rule ?\n" ++
      c!"p/l.cc:3:11-17: FYI: instead of 'y/p/x.h' found library that provides shorter same-suffix path 'p/x.h'\n" ++
      c!"./p/BUILD:3:28-31: ^... in source 'l.cc' referenced by //p:l\n" ++
      c!"./p/BUILD:3:35-38: Can not read source 'p/m.cc' for target //p:l; Run genrule `bazel build //p:g` first.\n" ++
      c!"./p/BUILD:4:9-12: Invalid target name 'x:::'\n" ++
      c!"./p/BUILD:4:16-17:: Unsure what //p:u provides, but there are also unaccounted headers. Won't remove.\n" ++
      c!"./p/BUILD:3:18: '//p:l' is using headers that would be provided by '//p:t', but the latter is marked testonly, the former not. Not adding dependency.\n" ++
      c!"./p/BUILD:3:18:: Would add //p:t, but not visible\n" ++
      c!"Checked DWYU on 2 targets.\n", []) := by decide +kernel
example : run [(c!"p/BUILD", c!"cc_library(name='t',hdrs=['y/x.h'])\ncc_binary(name='l',srcs=['l.cc'])"),
      (c!"p/l.cc", c!"#include \"y/x.h\"\n"), (c!"p/y/x.h", [])] { verbose := 2 } .dwyu everything =
    some (3, c!"buildozer 'add deps :t' //p:l\n",
      c!"Dependency graph expanded build file# from initial 1 to 1; 2 targets and 0 that depend on these.\n" ++
      c!"p/l.cc:1:11-15: FYI: instead of 'y/x.h' found library that provides longer same-suffix path 'p/y/x.h'\n" ++
      c!"Checked DWYU on 2 targets. Emitted 1 edits.\n", []) := by decide +kernel

/-- A call of the program: status, output, what is on standard error. -/
def call (args : List Str) : Option (Nat × Str × Str) :=
  (Stderr.bant ⟨fun _ => true, fun _ _ => true, c!"help\n", c!"version\n"⟩
    ⟨fun _ => disk [(c!"p/BUILD", c!"cc_library(name='a')\nx = [")], fun _ => [], fun _ _ _ => c!"stats\n"⟩ args).map
      fun o => (o.status, o.out, o.err)

/-- C119. -/
example : call [c!"parse"] = some (0, [], c!"./p/BUILD:2:6: got ''; expected value of sorts\n") := by decide +kernel
example : call [c!"-q", c!"parse"] = some (0, [], []) := by decide +kernel
example : call [c!"-v", c!"-b", c!"parse", c!"@foo//..."] =
    some (0, [], c!"Note, the name of -b option changed to -e\nUnknown project @foo.\n" ++
      c!"Pattern did not match any dir with BUILD file.\n" ++
      c!"Dependency graph expanded build file# from initial 0 to 0; 0 targets and 0 that depend on these.\n" ++
      c!"stats\n") := by decide +kernel
example : call [c!"-q", c!"-v", c!"-b", c!"parse", c!"@foo//..."] =
    some (0, [], c!"Note, the name of -b option changed to -e\nUnknown project @foo.\nstats\n") := by decide +kernel
example : call [c!"p"] =
    some (2, [], c!"Command 'p' too short and ambiguous: [parse, print, ...\n\n\nhelp\n") := by decide +kernel
example : call [c!"-q", c!"p"] = some (2, [], c!"help\n") := by decide +kernel
example : call [c!"zz"] = some (2, [], c!"Unknown command prefix 'zz'\n\n\nhelp\n") := by decide +kernel
example : call [] = some (2, [], c!"Command expected\n\n\nhelp\n") := by decide +kernel
example : call [c!"print"] = some (1, [], c!"Please provide a bazel pattern for this command.\n" ++
    c!"Examples: //... or //foo/bar:baz\n") := by decide +kernel
example : call [c!"print", c!"x:::"] = some (1, [], c!"Invalid bazel pattern x:::\n") := by decide +kernel
example : call [c!"print", c!"//a", c!"//b"] =
    some (1, [], c!"//b Sorry, can only deal with at most one pattern right now\n") := by decide +kernel

end Props
end Bant
