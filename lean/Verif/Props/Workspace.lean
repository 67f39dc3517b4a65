import Verif.Lemmas.Workspace
import Verif.Lemmas.Searchable
import Verif.Lemmas.SearchableFiles

/-! # External projects (C41, C59) -/
namespace Bant
namespace Props
open Workspace WorkspaceSpec Parser Rules

/-- **C41**, lookup: whatever has been registered in whatever order, a project is found iff one
with that name is registered; the result is the directory registered last for its lowest version. -/
theorem C41_lookup (log : List Entry) (question dir : Str) :
    findPath (build [] log) question = some dir ↔
      ∃ name version, AskedAs question name ∧ Registered log name version dir ∧
        ∀ other d, Registered log name other d → ¬ other < version := by
  rw [findPath_some (build_sorted .nil log)]
  simp only [build_mem]

theorem C41_lookup_none (log : List Entry) (question : Str) :
    findPath (build [] log) question = none ↔
      ∀ name, AskedAs question name → ∀ e ∈ log, e.name ≠ name := by
  rw [findPath_none (build_sorted .nil log)]
  simp only [build_mem]
  constructor
  · rintro h name hn e he rfl
    obtain ⟨d, hd⟩ := registered_of_mem he
    exact h _ hn _ d hd
  · rintro h name hn v d ⟨a, b, rfl, _⟩
    exact h name hn ⟨name, v, d⟩ (by simp) rfl

/-- Two versions: the lower one is found, with and without `@`; another project is not. -/
example :
    let m := build [] [⟨c!"x", c!"2.0", c!"e/x~2.0"⟩, ⟨c!"xy", c!"1", c!"e/xy"⟩,
      ⟨c!"x", c!"1.5", c!"e/old"⟩, ⟨c!"x", c!"1.5", c!"e/x~1.5"⟩]
    findPath m c!"@x" = some c!"e/x~1.5" ∧ findPath m c!"x" = some c!"e/x~1.5" ∧
      findPath m c!"y" = none := by decide

/-- **C41**, full statement on augmenting: nothing that is there is changed, and doing it twice is
the same as doing it once. -/
def C41_statement : Prop :=
  ∀ (fs : FileSystem) (log : List Entry), let m := build [] log
    (∀ e ∈ m, e ∈ (augment fs m).2) ∧ augment fs (augment fs m).2 = (false, (augment fs m).2)

/-- A directory whose name begins with `@` is not recognised as known: its entry is overwritten. -/
theorem C41_counterexample : ¬ C41_statement := by
  intro h
  have := (h ⟨fun _ => true, fun _ => true, fun _ => none, fun _ => [c!"e/@a"]⟩
    [⟨c!"@a", [], c!"here"⟩]).1 (⟨c!"@a", []⟩, c!"here") (by decide)
  revert this
  decide

/-- **C41** on augmenting, if no external directory has a name that begins with `@`: entries are
kept; exactly the projects of directories that were not known in any version are added, in one
version each; afterwards all are known; the result tells whether something was added; doing it
again changes nothing. -/
theorem C41_augment_partial (fs : FileSystem) (log : List Entry)
    (hat : ∀ dir ∈ fs.glob c!"bazel-out/../../../external/*", fs.isDirectory dir = true →
      ∀ name version, InDir dir name version → name.head? ≠ some '@') :
    let m := build [] log
    let m' := (augment fs m).2
    (∀ e ∈ m, e ∈ m') ∧
    (∀ name version dir, (⟨name, version⟩, dir) ∈ m' → (⟨name, version⟩, dir) ∈ m ∨
      (dir ∈ fs.glob c!"bazel-out/../../../external/*" ∧ fs.isDirectory dir = true ∧
        InDir dir name version ∧ (∀ v d, (⟨name, v⟩, d) ∉ m) ∧
        ∀ v d, (⟨name, v⟩, d) ∈ m' → v = version ∧ d = dir)) ∧
    (∀ dir ∈ fs.glob c!"bazel-out/../../../external/*", fs.isDirectory dir = true →
      ∀ name version, InDir dir name version → findPath m' name ≠ none) ∧
    ((augment fs m).1 = true ↔ m' ≠ m) ∧
    augment fs m' = (false, m') := by
  intro m m'
  have hg : fs.glob (externalBaseDir ++ c!"/*") = fs.glob c!"bazel-out/../../../external/*" := rfl
  have hat' : NoAt fs (fs.glob c!"bazel-out/../../../external/*") :=
    fun dir hd hdir n v hp => hat dir hd hdir n v (inDir_iff.2 hp)
  have A := augment_steps fs _ m false (build_sorted .nil log) hat'
  have hm : ((fs.glob c!"bazel-out/../../../external/*").foldl (augmentStep fs) (false, m)).2 = m' := rfl
  rw [hm] at A
  have again : augment fs m' = (false, m') := augment_again fs _ m' A.sorted hat' A.all
  refine ⟨A.kept, ?_, ?_, ⟨?_, ?_⟩, again⟩
  · intro n v d h
    rcases A.added n v d h with h | ⟨h1, h2, h3, h4, h5, _⟩
    · exact .inl h
    · exact .inr ⟨h1, h2, inDir_iff.2 h3, h4, h5⟩
  · intro dir hd hdir n v hin hnone
    obtain ⟨w, q, hq⟩ := A.all dir hd hdir n v (inDir_iff.1 hin)
    have hne := (parseFromDir_iff.1 (inDir_iff.1 hin)).1
    exact (findPath_none A.sorted).1 hnone n (asked_self hne (hat dir hd hdir n v hin)) w q hq
  · intro h
    rcases A.changed h with h | h
    · cases h
    · exact h
  · intro h
    cases hc : (augment fs m).1 with
    | true => rfl
    | false =>
      exfalso
      refine h (sorted_ext A.sorted (build_sorted .nil log) ?_)
      rintro ⟨⟨n, v⟩, d⟩
      refine ⟨fun hx => ?_, A.kept _⟩
      rcases A.added n v d hx with hx | ⟨_, _, _, _, _, hx⟩
      · exact hx
      · have : (augment fs m).1 = true := hx
        rw [hc] at this; cases this

/-- A directory of a known project, one of an unknown project, and a file. -/
example :
    augment ⟨fun d => d != c!"e/f", fun _ => true, fun _ => none, fun _ => [c!"e/a~2", c!"e/b~1", c!"e/b~2", c!"e/f"]⟩
      (build [] [⟨c!"a", c!"1", c!"e/a"⟩]) =
    (true, [(⟨c!"a", c!"1"⟩, c!"e/a"), (⟨c!"b", c!"1"⟩, c!"e/b~1")]) := by decide

/-- Every file system has statements in its workspace files. -/
theorem C59_parsed (fs : FileSystem) : ∃ stmts : Str → List Node,
    ∀ ws content, fs.content ws = some content → ∃ st, parseFile content = some (.list .list (stmts ws), st) := by
  have : ∀ ws, ∃ xs : List Node, ∀ content, fs.content ws = some content →
      ∃ st, parseFile content = some (.list .list xs, st) := by
    intro ws
    cases hc : fs.content ws with
    | none => exact ⟨[], by simp⟩
    | some content =>
      obtain ⟨n, st, hp, _⟩ := parseFile_total content
      obtain ⟨xs, rfl, _⟩ := ParserCalls.parseFile_calls hp
      exact ⟨xs, fun c he => by cases he; exact ⟨st, hp⟩⟩
  exact ⟨fun ws => (this ws).choose, fun ws => (this ws).choose_spec⟩

/-- **C59**: loading the workspace files that exist, whatever their content, gives the projects declared in
what is parsed of them for which there is a directory, with that directory; there is a workspace iff
one of the files exists. (There are such `stmts`, `C59_parsed`.) -/
theorem C59_load (fs : FileSystem) (stmts : Str → List Node)
    (h : ∀ ws ∈ wsFiles, ∀ content, fs.content ws = some content →
      ∃ st, parseFile content = some (.list .list (stmts ws), st)) :
    let present := [c!"WORKSPACE", c!"WORKSPACE.bazel", c!"WORKSPACE.bzlmod", c!"MODULE.bazel"].filter
      fun ws => (fs.content ws).isSome
    load fs = some (if present = [] then none
      else some (build [] (declared fs (present.map fun ws => .list .list (stmts ws))))) := by
  have key : ∀ (files : List Str), (∀ ws ∈ files, ws ∈ wsFiles) → ∀ b m,
      files.foldlM (loadFile fs) (b, m) =
        some (b || !(files.filter fun ws => (fs.content ws).isSome).isEmpty,
          build m (declared fs ((files.filter fun ws => (fs.content ws).isSome).map
            fun ws => .list .list (stmts ws)))) := by
    intro files
    induction files with
    | nil => intro _ b m; simp [build, declared]
    | cons ws files ih =>
      intro hin b m
      have ih := ih (fun x hx => hin x (by simp [hx]))
      rw [List.foldlM_cons]
      cases hc : fs.content ws with
      | none =>
        have : loadFile fs (b, m) ws = some (b, m) := by unfold loadFile; rw [hc]
        rw [this, Option.bind_eq_bind, Option.bind_some, ih]
        simp [hc]
      | some content =>
        obtain ⟨st, hp⟩ := h ws (hin ws (by simp)) content hc
        have : loadFile fs (b, m) ws = some (b || true,
            build m ((rulesOf [c!"http_archive", c!"bazel_dep"] (.list .list (stmts ws))).filterMap (entryOf fs))) := by
          unfold loadFile
          rw [hc]
          simp only [hp]
          rw [Query.findTargets_report _ (parsed_proper hp)]
          simp only [build_assign]
          rfl
        rw [this, Option.bind_eq_bind, Option.bind_some, ih]
        simp [hc, declared, build_append]
  intro present
  unfold load
  rw [key wsFiles (fun _ h => h)]
  change some (if (false || !present.isEmpty) then some (build [] (declared fs (present.map _))) else none) = _
  cases present <;> rfl

/-- Two declared projects, one of which is found under another name and in another version. -/
example :
    let base := c!"bazel-out/../../../external/"
    let fs : FileSystem := ⟨fun d => d == base ++ c!"a~2" || d == base ++ c!"b", fun _ => true,
      fun f => if f = c!"MODULE.bazel" then
        some c!"bazel_dep(name=\"a\", version=\"1\", repo_name=\"c\")\nbazel_dep(name=\"b\")\nbazel_dep(name=\"d\")"
        else none,
      fun p => if p = base ++ c!"a~*" then [base ++ c!"a~2"] else []⟩
    load fs = some (some [(⟨c!"b", []⟩, base ++ c!"b"), (⟨c!"c", c!"1"⟩, base ++ c!"a~2")]) := by
  decide +kernel

/-- After a syntax error nothing is read; what comes before it counts. -/
example :
    let base := c!"bazel-out/../../../external/"
    let fs : FileSystem := ⟨fun _ => true, fun _ => true,
      fun f => if f = c!"MODULE.bazel" then
        some c!"bazel_dep(name=\"a\")\nbazel_dep(name=\"b\", version=)\nbazel_dep(name=\"c\")"
        else none,
      fun _ => []⟩
    load fs = some (some [(⟨c!"a", []⟩, base ++ c!"a"), (⟨c!"b", []⟩, base ++ c!"b")]) := by
  decide +kernel

/-- **C60**, full statement: a file of a package is looked for in the directory of the project
the package is of; different projects do not share files. -/
def C60_statement : Prop :=
  ∀ (log : List Entry) (pkg : BazelPackage) (file : Str), pkg.project ≠ [] →
    (∀ e ∈ log, e.dir ≠ []) →
    pkg.fullyQualifiedFile (build [] log) file ≠
      ({ pkg with project := [] } : BazelPackage).fullyQualifiedFile (build [] log) file

/-- Files of an unknown external project are looked for in the main project. -/
theorem C60_counterexample : ¬ C60_statement := by
  intro h
  exact absurd rfl (h [] ⟨c!"@x", c!"a"⟩ c!"b.h" (by decide) (by simp))

/-- **C60**: a file of the main project is given by its path; a file of a known external project
by its path below the directory of the project. -/
theorem C60_file_partial (log : List Entry) (pkg : BazelPackage) (file : Str) :
    (pkg.project = [] → pkg.fullyQualifiedFile (build [] log) file = pkg.qualifiedFile file) ∧
    (∀ dir, dir ≠ [] → findPath (build [] log) pkg.project = some dir →
      pkg.fullyQualifiedFile (build [] log) file = dir ++ c!"/" ++ pkg.qualifiedFile file) := by
  constructor
  · intro h
    simp [BazelPackage.fullyQualifiedFile, h]
  · intro dir hd h
    have hp : pkg.project ≠ [] := by
      intro hp
      rw [hp] at h
      simp [findPath, findEntry] at h
    simp [BazelPackage.fullyQualifiedFile, hp, h, hd]

/-- **C60** (exact): a file of an external package is looked for in the main project iff the project is not known. -/
theorem C60_exact_partial (log : List Entry) (pkg : BazelPackage) (file : Str) (hp : pkg.project ≠ [])
    (hd : ∀ e ∈ log, e.dir ≠ []) :
    pkg.fullyQualifiedFile (build [] log) file =
      ({ pkg with project := [] } : BazelPackage).fullyQualifiedFile (build [] log) file ↔
    findPath (build [] log) pkg.project = none := by
  have hmain : ({ pkg with project := [] } : BazelPackage).fullyQualifiedFile (build [] log) file = pkg.qualifiedFile file := by
    simp [BazelPackage.fullyQualifiedFile, BazelPackage.qualifiedFile]
  rw [hmain]
  cases hf : findPath (build [] log) pkg.project with
  | none => simp [BazelPackage.fullyQualifiedFile, hp, hf]
  | some dir =>
    have hne : dir ≠ [] := by
      obtain ⟨name, version, _, ⟨a, b, rfl, _⟩, _⟩ := (C41_lookup log pkg.project dir).1 hf
      exact hd ⟨name, version, dir⟩ (by simp)
    rw [(C60_file_partial log pkg file).2 dir hne hf]
    simp only [reduceCtorEq, iff_false]
    intro h
    have := congrArg List.length h
    simp at this
    omega

example :
    (⟨c!"@x", c!"a"⟩ : BazelPackage).fullyQualifiedFile (build [] [⟨c!"x", c!"1", c!"e/x~1"⟩]) c!":b.h" =
      c!"e/x~1/a/b.h" := by decide

end Props
end Bant
