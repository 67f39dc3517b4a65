import Verif.Lemmas.Bazelrc
import Verif.Lemmas.CompDirs
import Verif.Lemmas.WorkspaceCmd
import Verif.Props.Dwyu

/-! # The commands `compilation-db` and `compile-flags` (C76 - C80) -/
namespace Bant
namespace Props
open Parser Query Rules CompDb CompDbSpec

/-! ## C77: when the commands crash -/

theorem handled_iff {ast : Node} {kinds : List Str} {pkg : BazelPackage} {r : Result} (hr : r ∈ rulesOf kinds ast) :
    Handled pkg r ↔ r.name ≠ c!":" ∧ (r.includePrefix ≠ [] → pkg.project ≠ []) := by
  have hn := (WorkspaceCmd.mem_rulesOf.1 hr).2
  unfold Handled
  refine and_congr ?_ Iff.rfl
  unfold BazelPackage.qualifiedTarget
  cases h : r.name with
  | nil => exact absurd h hn
  | cons c t =>
    by_cases hc : c = ':'
    · subst hc
      cases t <;> simp
    · simp [hc]

/-- **C77**, full statement: the include directories can be found for all files without errors. -/
def C77_statement : Prop :=
  ∀ (ws : Workspace.Map) (files : List (BazelPackage × Node)), (∀ f ∈ files, Searchable f.2) →
    (incDirs ws files).isSome = true

/-- **C77**, exactly when it holds: no rule has the name `:`, and no rule in the main project has `include_prefix`.
Otherwise a missing value is accessed, or an exception is thrown. -/
theorem C77_crash (ws : Workspace.Map) (files : List (BazelPackage × Node)) (hs : ∀ f ∈ files, Searchable f.2) :
    (incDirs ws files).isSome = true ↔
      ∀ pkg r, CcRule files pkg r → r.name ≠ c!":" ∧ (r.includePrefix ≠ [] → pkg.project ≠ []) := by
  have hh : ∀ {pkg r}, CcRule files pkg r → (Handled pkg r ↔ r.name ≠ c!":" ∧ (r.includePrefix ≠ [] → pkg.project ≠ [])) :=
    fun h => by obtain ⟨_, _, hr⟩ := h; exact handled_iff hr
  constructor
  · intro h pkg r hr
    rw [← hh hr]
    cases Classical.em (Handled pkg r) with
    | inl h => exact h
    | inr hn => rw [incDirs_none hs ⟨pkg, r, hr, hn⟩] at h; cases h
  · intro h
    obtain ⟨dirs, hd⟩ := incDirs_some (ws := ws) hs fun pkg r hr => (hh hr).2 (h pkg r hr)
    rw [hd]
    rfl

/-- **C77** for the commands: they have output exactly then. -/
theorem C77_commands_partial (ws : Workspace.Map) (cwd : Str) (rc : Option Str) (pattern : BazelPattern)
    (files : List (BazelPackage × Node)) (hs : ∀ f ∈ files, Searchable f.2) :
    ((database ws cwd rc pattern files).isSome = true ↔
      ∀ pkg r, CcRule files pkg r → r.name ≠ c!":" ∧ (r.includePrefix ≠ [] → pkg.project ≠ [])) ∧
    ((flags ws rc files).isSome = true ↔
      ∀ pkg r, CcRule files pkg r → r.name ≠ c!":" ∧ (r.includePrefix ≠ [] → pkg.project ≠ [])) := by
  rw [← C77_crash ws files hs]
  unfold database flags
  rw [allSources_eq hs]
  cases incDirs ws files <;> simp

example : parsesWell c!"cc_library(name = \"l\", include_prefix = \"x\")" = true := by decide +kernel

theorem C77_counterexample : ¬ C77_statement := by
  intro h
  have hw : parsesWell c!"cc_library(name = \"l\", include_prefix = \"x\")" = true := by decide +kernel
  have := h [] (projectOf c!"cc_library(name = \"l\", include_prefix = \"x\")") (projectOf_searchable hw)
  revert this
  decide +kernel

/-- The other way to crash. -/
example : incDirs [] (projectOf c!"cc_library(name = \":\")") = none := by decide +kernel

/-- Nothing of this in external projects, and with usual names. -/
example : incDirs [] [(⟨c!"@x", c!"p"⟩, treeOf c!"cc_library(name = \"l\", include_prefix = \"x\")")] =
    some [c!".", c!"bazel-bin", c!"bazel-bin/external/x/p/_virtual_includes/l"] := by decide +kernel

/-! ## C76: the database -/

/-- **C76**, full statement: what is written for files without errors can be read as JSON, it has an entry for each
source and header of rules that match. -/
def C76_statement : Prop :=
  ∀ (ws : Workspace.Map) (cwd : Str) (rc : Option Str) (pattern : BazelPattern)
    (files : List (BazelPackage × Node)) (text : Str), (∀ f ∈ files, Searchable f.2) →
    database ws cwd rc pattern files = some text →
    ∃ opts dirs, Json.read false text = some (.arr ((firsts (allSources ws pattern files)).map (entryOf cwd opts dirs)))

/-- The texts that occur need no quoting. -/
structure PlainTexts (ws : Workspace.Map) (cwd : Str) (rc : Option Str) (pattern : BazelPattern)
    (files : List (BazelPackage × Node)) (dirs : List Str) : Prop where
  cwd : Json.Plain cwd
  opts : ∀ o ∈ fileOptions rc, Json.Plain o
  dirs : ∀ d ∈ dirs, Json.Plain d
  srcs : ∀ s ∈ allSources ws pattern files, Json.Plain s

/-- **C76** for readers that allow commas before closing brackets, if no text needs quoting (missing: valid JSON,
and texts with quotes and the like). -/
theorem C76_database_partial (ws : Workspace.Map) (cwd : Str) (rc : Option Str) (pattern : BazelPattern)
    (files : List (BazelPackage × Node)) (dirs : List Str) (hs : ∀ f ∈ files, Searchable f.2)
    (hd : incDirs ws files = some dirs) (hp : PlainTexts ws cwd rc pattern files dirs) :
    ∃ text, database ws cwd rc pattern files = some text ∧
      Json.read true text =
        some (.arr ((firsts (allSources ws pattern files)).map (entryOf cwd (fileOptions rc) dirs))) := by
  refine ⟨_, by unfold database; rw [hd, allSources_eq hs]; rfl, ?_⟩
  rw [once_nil]
  exact read_db ⟨hp.cwd, hp.opts, hp.dirs, fun s h => hp.srcs s (mem_firsts.1 h)⟩

/-- It is not JSON, if there is an entry at all. -/
theorem C76_invalid (ws : Workspace.Map) (cwd : Str) (rc : Option Str) (pattern : BazelPattern)
    (files : List (BazelPackage × Node)) (dirs : List Str) (hs : ∀ f ∈ files, Searchable f.2)
    (hd : incDirs ws files = some dirs) (hp : PlainTexts ws cwd rc pattern files dirs)
    (hn : allSources ws pattern files ≠ []) :
    ∃ text, database ws cwd rc pattern files = some text ∧ Json.read false text = none := by
  refine ⟨_, by unfold database; rw [hd, allSources_eq hs]; rfl, ?_⟩
  rw [once_nil]
  refine read_db_strict ⟨hp.cwd, hp.opts, hp.dirs, fun s h => hp.srcs s (mem_firsts.1 h)⟩ fun h => ?_
  obtain ⟨x, hx⟩ := List.exists_mem_of_ne_nil _ hn
  rw [← mem_firsts, h] at hx
  cases hx

/-- **C76**: each source once, and all of them. -/
theorem C76_sources (ws : Workspace.Map) (pattern : BazelPattern) (files : List (BazelPackage × Node)) :
    (firsts (allSources ws pattern files)).Nodup ∧
    ∀ path, path ∈ firsts (allSources ws pattern files) ↔
      ∃ pkg ast r t src, (pkg, ast) ∈ files ∧ pattern.matchPackage pkg = true ∧
        r ∈ rulesOf [c!"cc_library", c!"cc_binary", c!"cc_test"] ast ∧ pkg.qualifiedTarget r.name = some t ∧
        pattern.matchTarget t = true ∧ (src ∈ stringsOf r.srcs ∨ src ∈ stringsOf r.hdrs) ∧
        path = pkg.fullyQualifiedFile ws src := by
  refine ⟨nodup_firsts _, fun path => ?_⟩
  rw [mem_firsts]
  unfold allSources
  rw [List.mem_flatMap]
  constructor
  · rintro ⟨⟨pkg, ast⟩, hf, h⟩
    by_cases hp : pattern.matchPackage pkg = true
    · rw [if_pos hp, List.mem_flatMap] at h
      obtain ⟨r, hr, h⟩ := h
      unfold sourcesOf at h
      cases ht : pkg.qualifiedTarget r.name with
      | none => rw [ht] at h; cases h
      | some t =>
        rw [ht] at h
        simp only [] at h
        by_cases hm : pattern.matchTarget t = true
        · rw [if_pos hm, List.mem_map] at h
          obtain ⟨src, h1, h2⟩ := h
          exact ⟨pkg, ast, r, t, src, hf, hp, hr, ht, hm, List.mem_append.1 h1, h2.symm⟩
        · rw [if_neg hm] at h; cases h
    · rw [if_neg hp] at h; cases h
  · rintro ⟨pkg, ast, r, t, src, hf, hp, hr, ht, hm, hsrc, rfl⟩
    refine ⟨(pkg, ast), hf, ?_⟩
    rw [if_pos hp, List.mem_flatMap]
    refine ⟨r, hr, ?_⟩
    unfold sourcesOf
    rw [ht]
    simp only []
    rw [if_pos hm]
    exact List.mem_map.2 ⟨src, List.mem_append.2 hsrc, rfl⟩

/-- A file for the examples. -/
def dbText : Str := c!"cc_library(name = \"l\", srcs = [\"a.cc\", \"b.cc\"], hdrs = [\"a.h\"])
cc_test(name = \"t\", srcs = [\"a.cc\"], deps = [\"@x//:y\"])"

theorem dbText_sources : allSources [] .always (projectOf dbText) = [c!"p/a.cc", c!"p/b.cc", c!"p/a.h", c!"p/a.cc"] := by
  decide +kernel

theorem dbText_plain : PlainTexts [] c!"/d" none .always (projectOf dbText) [c!".", c!"bazel-bin"] := by
  refine ⟨plain_lit _ (by decide), by simp [fileOptions], ?_, ?_⟩
  · intro d hd
    simp only [List.mem_cons, List.not_mem_nil, or_false] at hd
    rcases hd with rfl | rfl <;> exact plain_lit _ (by decide)
  · rw [dbText_sources]
    intro d hd
    simp only [List.mem_cons, List.not_mem_nil, or_false] at hd
    rcases hd with rfl | rfl | rfl | rfl <;> exact plain_lit _ (by decide)

theorem C76_counterexample : ¬ C76_statement := by
  intro h
  have hw : parsesWell dbText = true := by decide +kernel
  have hs := projectOf_searchable hw
  have hd : incDirs [] (projectOf dbText) = some [c!".", c!"bazel-bin"] := by decide +kernel
  obtain ⟨text, h1, h2⟩ := C76_invalid [] c!"/d" none .always _ _ hs hd dbText_plain (by rw [dbText_sources]; simp)
  obtain ⟨opts, dirs, h3⟩ := h _ _ _ _ _ text hs h1
  rw [h2] at h3
  cases h3

/-- Three entries, as `a.cc` is in two rules. -/
example : ∃ text, database [] c!"/d" none .always (projectOf dbText) = some text ∧
    Json.read true text = some (.arr ([c!"p/a.cc", c!"p/b.cc", c!"p/a.h"].map (entryOf c!"/d" [] [c!".", c!"bazel-bin"]))) := by
  have hw : parsesWell dbText = true := by decide +kernel
  have hd : incDirs [] (projectOf dbText) = some [c!".", c!"bazel-bin"] := by decide +kernel
  obtain ⟨text, h1, h2⟩ := C76_database_partial [] c!"/d" none .always _ _ (projectOf_searchable hw) hd dbText_plain
  refine ⟨text, h1, ?_⟩
  rw [h2, dbText_sources]
  rfl

/-! ## C78: the directories -/

/-- **C78**, full statement: the directories for headers are those of `Dir`, each once. -/
def C78_statement : Prop :=
  ∀ (ws : Workspace.Map) (files : List (BazelPackage × Node)) (dirs : List Str), (∀ f ∈ files, Searchable f.2) →
    incDirs ws files = some dirs → (∀ d, d ∈ dirs ↔ Dir ws files d) ∧ dirs.Nodup

/-- **C78** without clashes (missing: that each is given once, which is not true). -/
theorem C78_dirs_partial (ws : Workspace.Map) (files : List (BazelPackage × Node)) (dirs : List Str)
    (hs : ∀ f ∈ files, Searchable f.2) (hc : NoClash ws files) (h : incDirs ws files = some dirs) :
    ∀ d, d ∈ dirs ↔ Dir ws files d := by
  have hh : ∀ pkg r, CcRule files pkg r → Handled pkg r := by
    intro pkg r hr
    have := (C77_crash ws files hs).1 (by rw [h]; rfl) pkg r hr
    obtain ⟨_, _, h2⟩ := hr
    exact (handled_iff h2).2 this
  obtain ⟨dirs', h1, h2⟩ := incDirs_spec hs hh hc
  rw [h] at h1
  cases h1
  exact h2

/-- **C78**: the options of `compile-flags`, one in each line. -/
theorem C78_flags (ws : Workspace.Map) (rc : Option Str) (files : List (BazelPackage × Node)) (dirs : List Str)
    (h : incDirs ws files = some dirs) :
    flags ws rc files = some ((fileOptions rc ++ dirs.map (c!"-I" ++ ·)).flatMap (· ++ c!"\n")) := by
  unfold flags
  rw [h]
  simp [List.flatMap_map]

theorem C78_counterexample : ¬ C78_statement := by
  intro h
  have hw : parsesWell c!"cc_library(name = \"l\", includes = [\".\"])" = true := by decide +kernel
  have hs : ∀ f ∈ [((⟨[], []⟩ : BazelPackage), treeOf c!"cc_library(name = \"l\", includes = [\".\"])")], Searchable f.2 := by
    intro f hf
    have hf : f = (⟨[], []⟩, treeOf c!"cc_library(name = \"l\", includes = [\".\"])") := by simpa using hf
    subst hf
    exact projectOf_searchable hw (somePkg, _) (by simp [projectOf])
  have := (h [] _ [c!".", c!"bazel-bin", c!"."] hs (by decide +kernel)).2
  revert this
  decide

/-- A directory that is called like a project gets in the way. -/
example : incDirs [(⟨c!"foo", []⟩, c!"external/foo")]
    [(⟨[], []⟩, treeOf c!"cc_library(name = \"l\", includes = [\"@foo\"], deps = [\"@foo//:x\"])")] =
      some [c!".", c!"bazel-bin", c!"@foo"] := by decide +kernel

/-- The usual case. -/
example : incDirs [(⟨c!"foo", []⟩, c!"external/foo")]
    [(⟨[], c!"p"⟩, treeOf c!"cc_library(name = \"l\", includes = [\"inc\"], deps = [\"@foo//:x\", \":y\"])")] =
      some [c!".", c!"bazel-bin", c!"p/inc", c!"external/foo", c!"bazel-bin/external/foo"] := by decide +kernel

/-- There are no clashes in it. -/
example : NoClash [(⟨c!"foo", []⟩, c!"external/foo")]
    [(⟨[], c!"p"⟩, treeOf c!"cc_library(name = \"l\", includes = [\"inc\"], deps = [\"@foo//:x\", \":y\"])"),
     (⟨c!"@protobuf", c!"q"⟩, treeOf c!"proto_library(name = \"m\", deps = [\":n\"])")] := by
  have key : ∀ f ∈ [((⟨[], c!"p"⟩ : BazelPackage),
        treeOf c!"cc_library(name = \"l\", includes = [\"inc\"], deps = [\"@foo//:x\", \":y\"])"),
      (⟨c!"@protobuf", c!"q"⟩, treeOf c!"proto_library(name = \"m\", deps = [\":n\"])")],
      ∀ r ∈ rulesOf [c!"cc_library", c!"cc_binary", c!"cc_test", c!"proto_library"] f.2, ∀ d ∈ stringsOf r.includes,
      (f.1.fullyQualifiedFile [(⟨c!"foo", []⟩, c!"external/foo")] d).head? ≠ some '@' ∧
      f.1.fullyQualifiedFile [(⟨c!"foo", []⟩, c!"external/foo")] d ≠ c!"protobuf-extra-include-hack" := by
    decide +kernel
  refine ⟨?_, ?_, ?_⟩
  · intro f hf
    simp only [List.mem_cons, List.not_mem_nil, or_false] at hf
    rcases hf with rfl | rfl <;> simp
  · rintro pkg r d ⟨ast, hf, hr⟩ hd
    exact key _ hf r hr d hd
  · rintro pkg r pkg' r' ⟨ast, hf, _⟩ ⟨ast', hf', _⟩ h h'
    simp only [List.mem_cons, Prod.mk.injEq, List.not_mem_nil, or_false] at hf hf'
    rcases hf with ⟨rfl, _⟩ | ⟨rfl, _⟩
    · exact absurd h (by decide)
    · rcases hf' with ⟨rfl, _⟩ | ⟨rfl, _⟩
      · exact absurd h' (by decide)
      · rfl

/-! ## C79: options in `.bazelrc` -/

/-- **C79**, full statement: options are only taken from lines for the commands `build` and `test`. -/
def C79_statement : Prop :=
  ∀ (text opt : Str), opt ∈ options text → opt ≠ c!"-DGTEST_HAS_ABSL=1" →
    ∃ line, LineOf text line ∧ ((words line).head? = some c!"build" ∨ (words line).head? = some c!"test") ∧
      opt <:+: line

/-- **C79**, what is taken, whatever the lines are about: the values of `--cxxopt` and `--host_cxxopt`, in their
order and each once (missing: the restriction to some lines; quotes). -/
theorem C79_options_partial (text : Str) (h : ∀ w ∈ words text, SimpleWord w) :
    ∃ gtest, options text = firsts (wanted false (words text)) ++ gtest ∧ (gtest = [] ∨ gtest = [c!"-DGTEST_HAS_ABSL=1"]) ∧
      (gtest ≠ [] ↔ ∃ a b d, text = a ++ c!"define" ++ b ++ c!"absl=1" ++ d ∧ '\n' ∉ b) := by
  refine ⟨_, by unfold options; rw [once_nil, cxxopts_words _ text (Nat.le_refl _) h], ?_, ?_⟩
  · by_cases hd : definesAbsl text = true <;> simp [hd]
  · rw [← definesAbsl_iff]
    by_cases hd : definesAbsl text = true <;> simp [hd]

/-- **C79**, what is taken from any text: the options after flags, each up to the next blank or quote. -/
theorem C79_found (text : Str) : ∃ opts gtest, (∀ opts', OptionsIn text opts' ↔ opts' = opts) ∧
    options text = firsts opts ++ gtest ∧ (gtest = [] ∨ gtest = [c!"-DGTEST_HAS_ABSL=1"]) ∧
      (gtest ≠ [] ↔ ∃ a b d, text = a ++ c!"define" ++ b ++ c!"absl=1" ++ d ∧ '\n' ∉ b) := by
  refine ⟨cxxopts 0 text, _, fun opts' => ⟨optionsIn_unique, ?_⟩, by unfold options; rw [once_nil], ?_, ?_⟩
  · rintro rfl; exact cxxopts_in _ text (Nat.le_refl _)
  · by_cases hd : definesAbsl text = true <;> simp [hd]
  · rw [← definesAbsl_iff]
    by_cases hd : definesAbsl text = true <;> simp [hd]

/-- Without the file, there are no options. -/
theorem C79_missing : fileOptions none = [] := rfl

theorem C79_counterexample : ¬ C79_statement := by
  intro h
  obtain ⟨line, ⟨a, b, e, hn, ha, hb⟩, hw, _⟩ := h c!"build:asan --cxxopt=-fx" c!"-fx" (by decide) (by decide)
  have hnl : ∀ c ∈ a ++ line ++ b, c ≠ '\n' := by rw [← e]; decide
  have ha : a = [] := by
    refine ha.resolve_right fun h => ?_
    exact hnl '\n' (by simp [List.mem_of_getLast? h]) rfl
  have hb : b = [] := by
    refine hb.resolve_right fun h => ?_
    exact hnl '\n' (by simp [List.mem_of_head? h]) rfl
  subst ha hb
  simp at e
  subst e
  revert hw
  decide

/-- Comments, too, and a value may be on the next line. -/
example : options c!"# not --cxxopt=-a\nbuild --cxxopt\n-b --host_cxxopt=-a --cxxopt='-c d'" = [c!"-a", c!"-b", c!"-c"] := by
  decide

example : ∀ w ∈ words c!"build --cxxopt=-std=c++20 --host_cxxopt -O3\ntest --cxxopt=-std=c++20 --cxxopt x --define absl=1",
    SimpleWord w := by
  intro w hw
  have : words c!"build --cxxopt=-std=c++20 --host_cxxopt -O3\ntest --cxxopt=-std=c++20 --cxxopt x --define absl=1" =
    [c!"build", c!"--cxxopt=-std=c++20", c!"--host_cxxopt", c!"-O3", c!"test", c!"--cxxopt=-std=c++20", c!"--cxxopt", c!"x",
      c!"--define", c!"absl=1"] := by decide
  rw [this] at hw
  simp only [List.mem_cons, List.not_mem_nil, or_false] at hw
  rcases hw with rfl | rfl | rfl | rfl | rfl | rfl | rfl | rfl | rfl | rfl
  · exact ⟨by decide, by decide, by decide, .inl (by decide)⟩
  · exact ⟨by decide, by decide, by decide, .inr (.inr (.inr ⟨c!"-std=c++20", rfl, .inl rfl⟩))⟩
  · exact ⟨by decide, by decide, by decide, .inr (.inr (.inl rfl))⟩
  · exact ⟨by decide, by decide, by decide, .inl (by decide)⟩
  · exact ⟨by decide, by decide, by decide, .inl (by decide)⟩
  · exact ⟨by decide, by decide, by decide, .inr (.inr (.inr ⟨c!"-std=c++20", rfl, .inl rfl⟩))⟩
  · exact ⟨by decide, by decide, by decide, .inr (.inl rfl)⟩
  · exact ⟨by decide, by decide, by decide, .inl (by decide)⟩
  · exact ⟨by decide, by decide, by decide, .inl (by decide)⟩
  · exact ⟨by decide, by decide, by decide, .inl (by decide)⟩

/-- A quoted option. -/
example : FlagFor c!"--cxxopt = '-c" c!"-c" ∧ options c!"build --cxxopt = '-c' x" = [c!"-c"] := by
  refine ⟨⟨c!"--cxxopt", c!" ", c!"=", c!" ", c!"'", c!"c", rfl, ?_⟩, by decide⟩
  decide

example : options c!"build --cxxopt=-std=c++20 --host_cxxopt -O3\ntest --cxxopt=-std=c++20 --cxxopt x --define absl=1" =
    [c!"-std=c++20", c!"-O3", c!"-DGTEST_HAS_ABSL=1"] := by decide

/-! ## C80: headers are found -/

/-- **C80**, full statement: a header of a library of the main project, which can be included by a certain path as far as
`lib-headers` and `dwyu` are concerned, is found in one of the directories. -/
def C80_statement : Prop :=
  ∀ (ws : Workspace.Map) (files : List (BazelPackage × Node)) (dirs : List Str) (pkg : BazelPackage) (r : Result)
    (h inc : Str), (∀ f ∈ files, Searchable f.2) → incDirs ws files = some dirs → CcRule files pkg r →
    pkg.project = [] → r.includePrefix = [] → h ∈ stringsOf r.hdrs → HeaderSpec.IncludedAs pkg r h inc →
    ∃ d ∈ dirs, Finds d inc (pkg.fullyQualifiedFile ws h)

/-- **C80** for headers that are included with their path in the project (missing: `strip_include_prefix`, and
`includes` in packages that are not at the root). -/
theorem C80_found_partial (ws : Workspace.Map) (files : List (BazelPackage × Node)) (dirs : List Str)
    (pkg : BazelPackage) (h : Str) (hd : incDirs ws files = some dirs) (hp : pkg.project = []) :
    ∃ d ∈ dirs, Finds d (pkg.qualifiedFile h) (pkg.fullyQualifiedFile ws h) := by
  refine ⟨c!".", ?_, .inl ⟨rfl, ?_⟩⟩
  · unfold incDirs at hd
    obtain ⟨o, _, rfl⟩ := Option.map_eq_some_iff.1 hd
    simp
  · simp [BazelPackage.fullyQualifiedFile, hp]

/-- Of other projects, those are found that something depends on. -/
theorem C80_external_partial (ws : Workspace.Map) (files : List (BazelPackage × Node)) (dirs : List Str)
    (pkg : BazelPackage) (h dir : Str) (hs : ∀ f ∈ files, Searchable f.2) (hc : NoClash ws files)
    (hd : incDirs ws files = some dirs) (hdep : DependsOnProject files pkg.project)
    (hf : Workspace.findPath ws pkg.project = some dir) (hne : dir ≠ []) (hl : dir.getLast? ≠ some '/') :
    ∃ d ∈ dirs, Finds d (pkg.qualifiedFile h) (pkg.fullyQualifiedFile ws h) := by
  have hm := C78_dirs_partial ws files dirs hs hc hd
  have hp : pkg.project ≠ [] := by obtain ⟨_, _, _, _, _, _, _, _, h⟩ := hdep; exact h
  refine ⟨dir, (hm _).2 (.project hdep hf), .inr ⟨dir ++ c!"/", .inr ⟨hl, rfl⟩, ?_⟩⟩
  simp [BazelPackage.fullyQualifiedFile, hp, hf, hne]

/-- Headers in an include directory of a package at the root are found, too. -/
theorem C80_includes_partial (ws : Workspace.Map) (files : List (BazelPackage × Node)) (dirs : List Str)
    (pkg : BazelPackage) (r : Result) (h d dir rest : Str) (hs : ∀ f ∈ files, Searchable f.2) (hc : NoClash ws files)
    (hd : incDirs ws files = some dirs) (hr : CcRule files pkg r) (hp : pkg = ⟨[], []⟩) (hi : d ∈ stringsOf r.includes)
    (hcol : d.head? ≠ some ':') (hdir : HeaderSpec.DirOf d dir) (he : pkg.qualifiedFile h = dir ++ rest) :
    ∃ d ∈ dirs, Finds d rest (pkg.fullyQualifiedFile ws h) := by
  have hm := C78_dirs_partial ws files dirs hs hc hd
  subst hp
  refine ⟨d, ?_, .inr ⟨dir, hdir, ?_⟩⟩
  · have := (hm _).2 (.declared hr hi)
    have e : BazelPackage.fullyQualifiedFile ⟨[], []⟩ ws d = d := by
      cases d with
      | nil => rfl
      | cons c d =>
        have hc : c ≠ ':' := by rintro rfl; exact hcol rfl
        simp [BazelPackage.fullyQualifiedFile, BazelPackage.qualifiedFile, hc]
    rwa [e] at this
  · rw [← he]
    simp [BazelPackage.fullyQualifiedFile]

theorem C80_counterexample : ¬ C80_statement := by
  intro hst
  have hw : parsesWell c!"cc_library(name = \"l\", hdrs = [\"s/h.h\"], strip_include_prefix = \"p/s\")" = true := by
    decide +kernel
  have hany : (rulesOf [c!"cc_library", c!"cc_binary", c!"cc_test", c!"proto_library"]
      (treeOf c!"cc_library(name = \"l\", hdrs = [\"s/h.h\"], strip_include_prefix = \"p/s\")")).any (fun r =>
        decide (r.includePrefix = [] ∧ stringsOf r.hdrs = [c!"s/h.h"] ∧ r.stripIncludePrefix = c!"p/s")) = true := by
    decide +kernel
  obtain ⟨r, hr, hx⟩ := List.any_eq_true.1 hany
  obtain ⟨h1, h2, h3⟩ := of_decide_eq_true hx
  obtain ⟨d, hd, hf⟩ := hst [] (projectOf _) [c!".", c!"bazel-bin"] somePkg r c!"s/h.h" c!"h.h"
    (projectOf_searchable hw) (by decide +kernel) ⟨_, by simp [projectOf], hr⟩ rfl h1 (by simp [h2])
    (.short (dir := c!"p/s") h1 ⟨0, 0, by simp [h3], by decide, by decide⟩ (by simp) (by decide))
  have e : somePkg.fullyQualifiedFile [] c!"s/h.h" = c!"p/s/h.h" := by decide
  rw [e] at hf
  simp only [List.mem_cons, List.not_mem_nil, or_false] at hd
  rcases hd with rfl | rfl
  · rcases hf with ⟨_, h⟩ | ⟨d, hd | hd, h⟩
    · revert h; decide
    · exact absurd hd.1 (by decide)
    · rw [hd.2] at h; revert h; decide
  · rcases hf with ⟨h, _⟩ | ⟨d, hd | hd, h⟩
    · revert h; decide
    · exact absurd hd.1 (by decide)
    · rw [hd.2] at h; revert h; decide

end Props
end Bant
