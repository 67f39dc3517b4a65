import Verif.Lemmas.DepGraph
import Verif.Props.Dwyu
import Verif.Props.Workspace

/-! # The dependency graph (C30, C31, C32, C61, C62) -/
namespace Bant
namespace Props
open Query Rules Headers DepGraph GraphSpec

/-! ## C30: reachability -/

/-- What is assumed of a project: the loaded files, and those needed within the given number of
steps, can be searched (`C62_build_partial` is about when that is so). -/
structure Sound (w : World) (pattern : BazelPattern) (depth : Nat) (files : Files) : Prop where
  loaded : ∀ f ∈ files, Searchable f.2
  needed : ∀ n t, n ≤ depth → ReachIn w pattern files n t → lookup files t.package = none →
    LoadsWell w t.package

/-- **C30**: the targets in the graph are exactly the defined ones that are reached within the
given number of steps. -/
theorem C30_reach (w : World) (pattern : BazelPattern) (depth : Int) (files : Files)
    (h : Sound w pattern depth.toNat files) :
    ∃ now g, build w pattern depth files = some (now, g) ∧ (g.dependsOn.map (·.1)).Nodup ∧
      ∀ t, t ∈ g.dependsOn.map (·.1) ↔
        (∃ n, n ≤ depth.toNat ∧ ReachIn w pattern files n t) ∧ ∃ r, Defines w files t r := by
  obtain ⟨now, g, h1, h2⟩ := build_spec depth h.loaded h.needed
  refine ⟨now, g, h1, h2.keys, ?_⟩
  intro t
  simp only [List.mem_map]
  constructor
  · rintro ⟨⟨k, ds⟩, hm, rfl⟩
    obtain ⟨hd, j, hj, hr⟩ := (h2.value k ds).1 ((mem_lookup h2.keys).1 hm)
    obtain ⟨r, hr', _⟩ := defn_iff.1 hd
    exact ⟨⟨j, by omega, hr⟩, r, hr'⟩
  · rintro ⟨⟨n, hn, hr⟩, r, hd⟩
    exact ⟨(t, depsOf t.package r), (mem_lookup h2.keys).2
      ((h2.value _ _).2 ⟨defn_iff.2 ⟨r, hd, rfl⟩, n, by omega, hr⟩), rfl⟩

/-- **C30**, unlimited depth: if the limit is at least the number of the defined targets that can
be reached, the targets in the graph are exactly these. -/
theorem C30_all (w : World) (pattern : BazelPattern) (depth : Int) (files : Files)
    (h : Sound w pattern depth.toNat files) (all : List BazelTarget)
    (hall : ∀ t r, Reach w pattern files t → Defines w files t r → t ∈ all)
    (hd : all.length ≤ depth.toNat) :
    ∃ now g, build w pattern depth files = some (now, g) ∧
      ∀ t, t ∈ g.dependsOn.map (·.1) ↔ Reach w pattern files t ∧ ∃ r, Defines w files t r := by
  obtain ⟨now, g, h1, _, h2⟩ := C30_reach w pattern depth files h
  refine ⟨now, g, h1, fun t => (h2 t).trans ⟨?_, ?_⟩⟩
  · rintro ⟨⟨n, _, hr⟩, hd⟩
    exact ⟨⟨n, hr⟩, hd⟩
  · rintro ⟨⟨n, hr⟩, hdef⟩
    refine ⟨?_, hdef⟩
    obtain ⟨m, _, hm⟩ := minDist_exists n t hr
    refine ⟨m, ?_, hm.1⟩
    obtain ⟨ys, hlen, hn, hy⟩ := minDist_path m t hm
    have : ys ⊆ all := by
      intro y hys
      obtain ⟨hdy, j, _, hmj⟩ := hy y hys
      cases hv : defn w files y with
      | none => exact absurd hv hdy
      | some ds =>
        obtain ⟨r, hr, _⟩ := defn_iff.1 hv
        exact hall y r ⟨j, hmj.1⟩ hr
    have := hn.length_le_of_subset this
    omega

/-- **C30**, what is loaded: the files that were there, and those of the packages of targets that
are reached. -/
theorem C30_loaded (w : World) (pattern : BazelPattern) (depth : Int) (files : Files)
    (h : Sound w pattern depth.toNat files) :
    ∃ now g, build w pattern depth files = some (now, g) ∧ (∀ f ∈ now, Searchable f.2) ∧
      ∀ pkg ast, lookup now pkg = some ast ↔ lookup files pkg = some ast ∨
        (lookup files pkg = none ∧ load w pkg = some (some ast) ∧
          ∃ n t, n ≤ depth.toNat ∧ ReachIn w pattern files n t ∧ t.package = pkg) := by
  obtain ⟨now, g, h1, h2⟩ := build_spec depth h.loaded h.needed
  refine ⟨now, g, h1, h2.searchable, ?_⟩
  intro pkg ast
  rw [h2.loaded]
  unfold GraphSpec.treeOf
  cases hl : lookup files pkg with
  | some a => simp
  | none =>
    simp only [ne_eq, not_true_eq_false, false_or, true_and, reduceCtorEq]
    constructor
    · rintro ⟨ha, j, t, hj, hr⟩
      refine ⟨?_, j, t, by omega, hr⟩
      split at ha
      · next hx => rw [hx]; exact congrArg some ha
      · cases ha
    · rintro ⟨ha, j, t, hj, hr⟩
      exact ⟨by rw [ha], j, t, by omega, hr⟩

/-! ## C32: the first definition -/

/-- **C32**: what is recorded for a target are the dependencies of the first rule of that name, in
order, each as often as it is given. -/
theorem C32_first (w : World) (pattern : BazelPattern) (depth : Int) (files : Files)
    (h : Sound w pattern depth.toNat files) :
    ∃ now g, build w pattern depth files = some (now, g) ∧ (g.dependsOn.map (·.1)).Nodup ∧
      ∀ t ds, (t, ds) ∈ g.dependsOn → ∃ r, Defines w files t r ∧ ds = depsOf t.package r := by
  obtain ⟨now, g, h1, h2⟩ := build_spec depth h.loaded h.needed
  refine ⟨now, g, h1, h2.keys, ?_⟩
  intro t ds hm
  exact defn_iff.1 ((h2.value t ds).1 ((mem_lookup h2.keys).1 hm)).1

/-! ## C31: dependents -/

/-- **C31**: in the graph of any project, `b` is listed as dependent of `a` as often as `a` is
listed as dependency of `b`. -/
theorem C31_inverse (w : World) (pattern : BazelPattern) (depth : Int) (files now : Files) (g : Graph)
    (h : build w pattern depth files = some (now, g)) :
    (g.dependsOn.map (·.1)).Nodup ∧ (g.hasDependents.map (·.1)).Nodup ∧
    ∀ a b, (dependents g a).count b = (dependencies g b).count a :=
  ⟨(build_ok h).keys, (build_ok h).keys', (build_ok h).symmetric⟩

/-! ## C61: where BUILD files are looked for -/

/-- **C61**, full statement: the BUILD file of a package is looked for where other files of the
package are. -/
def C61_statement : Prop :=
  ∀ (w : World) (pkg : BazelPackage) (path : Str), pathForPackage w pkg = some path →
    ∃ name ∈ [c!"BUILD", c!"BUILD.bazel"], path = pkg.fullyQualifiedFile w.workspace name

/-- A world with the given files. -/
def worldOf (texts : List (Str × Str)) : World :=
  ⟨⟨fun _ => false, fun p => (texts.find? (·.1 = p)).isSome,
    fun p => (texts.find? (·.1 = p)).map (·.2), fun _ => []⟩, [], fun _ _ _ => []⟩

/-- The BUILD file of the top directory is looked for in the root directory of the file system. -/
theorem C61_counterexample : ¬ C61_statement := by
  intro h
  have := h (worldOf [(c!"/BUILD", [])]) ⟨[], []⟩ c!"/BUILD" (by decide)
  revert this
  decide

/-- **C61**, but for the top directory of the main project: it is the first of two names that
can be read, in the directory of the package. -/
theorem C61_build_file_partial (w : World) (pkg : BazelPackage) :
    let places := [pkg.fullyQualifiedFile w.workspace c!"BUILD",
      pkg.fullyQualifiedFile w.workspace c!"BUILD.bazel"]
    (pkg.project ≠ [] → Workspace.findPath w.workspace pkg.project = none →
      pathForPackage w pkg = none) ∧
    (pkg.project = [] → pkg.path ≠ [] → pkg.path.getLast? ≠ some '/' →
      pathForPackage w pkg = places.find? w.fs.canRead) ∧
    (∀ dir, Workspace.findPath w.workspace pkg.project = some dir → dir ≠ [] →
      (pkg.path = [] → dir.getLast? ≠ some '/') → pkg.path.getLast? ≠ some '/' →
      pathForPackage w pkg = places.find? w.fs.canRead) := by
  intro places
  have strip : ∀ s : Str, s.getLast? ≠ some '/' → stripBack '/' s = s := fun s hs => by
    simpa using stripBack_append '/' s 0 hs
  have q : ∀ n : Str, n = c!"BUILD" ∨ n = c!"BUILD.bazel" → pkg.qualifiedFile n =
      if pkg.path = [] then n else pkg.path ++ '/' :: n := by
    rintro n (rfl | rfl) <;> by_cases hp : pkg.path = [] <;> simp [BazelPackage.qualifiedFile, hp]
  refine ⟨?_, ?_, ?_⟩
  · intro hp hn
    simp [pathForPackage, hp, hn]
  · intro hp hne hs
    show pathForPackage w pkg = List.find? _ [_, _]
    unfold pathForPackage BazelPackage.fullyQualifiedFile
    rw [q _ (.inl rfl), q _ (.inr rfl)]
    simp [hp, hne, Workspace.join, strip _ hs]
  · intro dir hd hne hdir hs
    have hp : pkg.project ≠ [] := by
      intro hp
      rw [hp] at hd
      simp [Workspace.findPath, Workspace.findEntry] at hd
    show pathForPackage w pkg = List.find? _ [_, _]
    unfold pathForPackage BazelPackage.fullyQualifiedFile
    rw [q _ (.inl rfl), q _ (.inr rfl)]
    by_cases hpath : pkg.path = []
    · simp [hp, hd, hne, hpath, Workspace.join, strip _ (hdir hpath)]
    · have : stripBack '/' (dir ++ '/' :: pkg.path) = dir ++ '/' :: pkg.path := by
        apply strip
        rw [show dir ++ '/' :: pkg.path = (dir ++ ['/']) ++ pkg.path by simp, List.getLast?_append]
        cases hl : pkg.path.getLast? with
        | none => exact absurd (List.getLast?_eq_none_iff.1 hl) hpath
        | some c => rw [hl] at hs; simpa using hs
      simp [hp, hd, hne, hpath, Workspace.join, this]

/-- **C61** (the top directory of the main project): the two names are looked for in the root directory of the file
system. -/
theorem C61_top_partial (w : World) :
    pathForPackage w ⟨[], []⟩ = [c!"/BUILD", c!"/BUILD.bazel"].find? w.fs.canRead := by
  have h1 : Workspace.join [] c!"BUILD" = c!"/BUILD" := by decide
  have h2 : Workspace.join [] c!"BUILD.bazel" = c!"/BUILD.bazel" := by decide
  simp only [pathForPackage, if_true, List.map_cons, List.map_nil, h1, h2]

example : pathForPackage (worldOf [(c!"q/BUILD.bazel", [])]) ⟨[], c!"q"⟩ = some c!"q/BUILD.bazel" := by decide
example : pathForPackage (worldOf [(c!"q/BUILD.bazel", []), (c!"q/BUILD", [])]) ⟨[], c!"q"⟩ =
    some c!"q/BUILD" := by decide
example : pathForPackage { worldOf [(c!"e/x/q/BUILD", [])] with workspace := [(⟨c!"x", []⟩, c!"e/x")] }
    ⟨c!"@x", c!"q"⟩ = some c!"e/x/q/BUILD" := by decide

/-! ## C62: no crash -/

/-- **C62**, full statement: if nothing is missing in the BUILD files, the graph is built. -/
def C62_statement : Prop :=
  ∀ (w : World) (pattern : BazelPattern) (depth : Int) (files : Files),
    (∀ f ∈ files, Searchable f.2) →
    (∀ path text, IsBuild path → w.fs.content path = some text → UsableText text) →
    build w pattern depth files ≠ none

theorem loads_complete {w : World}
    (hread : ∀ path, IsBuild path → w.fs.canRead path = true → w.fs.content path ≠ none)
    (hclean : ∀ path text, IsBuild path → w.fs.content path = some text → UsableText text) (pkg : BazelPackage) :
    ∃ tree, load w pkg = some tree ∧ ∀ ast, tree = some ast → Complete ast := by
  unfold load
  cases hp : pathForPackage w pkg with
  | none => exact ⟨none, rfl, by simp⟩
  | some path =>
    obtain ⟨hb, hr⟩ : IsBuild path ∧ w.fs.canRead path = true := by
      unfold pathForPackage at hp
      have : ∀ start : Str, ([c!"BUILD", c!"BUILD.bazel"].map (Workspace.join start)).find? w.fs.canRead = some path →
          IsBuild path ∧ w.fs.canRead path = true := by
        intro start h
        refine ⟨?_, List.find?_some h⟩
        obtain ⟨name, hn, rfl⟩ := List.mem_map.1 (List.mem_of_find?_eq_some h)
        exact ⟨name, hn, .inr ⟨_, rfl⟩⟩
      simp only [] at hp
      by_cases hproj : pkg.project = []
      · rw [if_pos hproj] at hp; exact this _ hp
      · rw [if_neg hproj] at hp
        cases hf : Workspace.findPath w.workspace pkg.project with
        | none => rw [hf] at hp; cases hp
        | some root => rw [hf] at hp; exact this _ hp
    cases hc : w.fs.content path with
    | none => exact absurd hc (hread path hb hr)
    | some text =>
      obtain ⟨stmts, st, h1, _, h3⟩ := hclean path text hb hc
      obtain ⟨out, h4, h5⟩ := h3 (w.glob pkg)
      refine ⟨some out, by simp [hc, h1, h4], ?_⟩
      rintro ast h
      cases h
      exact h5

theorem loadsWell_of {w : World}
    (hread : ∀ path, IsBuild path → w.fs.canRead path = true → w.fs.content path ≠ none)
    (hclean : ∀ path text, IsBuild path → w.fs.content path = some text → UsableText text) (pkg : BazelPackage) :
    LoadsWell w pkg := by
  obtain ⟨tree, h1, h2⟩ := loads_complete hread hclean pkg
  exact ⟨tree, h1, fun ast h => (h2 ast h).toSearchable⟩

/-- **C62**, if everything called BUILD or BUILD.bazel that has read permission can be read. Then also
everything holds that is assumed in C30 and C32. -/
theorem C62_build_partial (w : World) (pattern : BazelPattern) (depth : Int) (files : Files)
    (hs : ∀ f ∈ files, Searchable f.2)
    (hread : ∀ path, IsBuild path → w.fs.canRead path = true → w.fs.content path ≠ none)
    (hclean : ∀ path text, IsBuild path → w.fs.content path = some text → UsableText text) :
    Sound w pattern depth.toNat files ∧ build w pattern depth files ≠ none := by
  have h : Sound w pattern depth.toNat files :=
    ⟨hs, fun _ t _ _ _ => loadsWell_of hread hclean t.package⟩
  obtain ⟨now, g, h1, _⟩ := C30_reach w pattern depth files h
  exact ⟨h, by simp [h1]⟩

/-- A file that depends on something in another package. -/
def dependingText : Str := c!"cc_library(name=\"a\",deps=[\"//q:b\"])"

/-- A directory with the name BUILD. -/
theorem C62_counterexample : ¬ C62_statement := by
  intro h
  exact h ⟨⟨fun p => p == c!"q/BUILD", fun p => p == c!"q/BUILD", fun _ => none, fun _ => []⟩, [],
    fun _ _ _ => []⟩ .always 1 (projectOf dependingText)
    (projectOf_searchable (by decide +kernel)) (by simp) (by decide +kernel)

/-! ## Examples -/

/-- The graph for a project with a single loaded file, in package `p`. -/
def graphOf (texts : List (Str × Str)) (pattern : BazelPattern) (depth : Int) (text : Str) :
    Option (List BazelPackage × Graph) :=
  (build (worldOf texts) pattern depth (projectOf text)).map fun r => (r.1.map (·.1), r.2)

/-- A target of package `q`. -/
def other! (name : Str) : BazelTarget := ⟨⟨[], c!"q"⟩, name⟩

/-- A cycle through another package, that is loaded; `:d` does not exist; `:a` is defined twice. -/
def cyclicText : Str :=
  c!"cc_library(name=\"a\",deps=[\"//q:b\",\":d\",\":d\"])\ncc_library(name=\"c\")\ncc_library(name=\"a\",deps=[\":c\"])"

def cyclicOther : List (Str × Str) := [(c!"q/BUILD", c!"alias(name=\"b\",actual=\"//p:a\")")]

example : graphOf cyclicOther .always 5 cyclicText = some ([somePkg, ⟨[], c!"q"⟩],
    ⟨[(local! c!"a", [other! c!"b", local! c!"d", local! c!"d"]), (local! c!"c", []),
      (other! c!"b", [local! c!"a"])],
     [(local! c!"a", [other! c!"b"]), (local! c!"d", [local! c!"a", local! c!"a"]),
      (other! c!"b", [local! c!"a"])]⟩) := by decide +kernel
/-- Without steps, only what matches is in the graph. -/
example : graphOf cyclicOther .always 0 cyclicText = some ([somePkg],
    ⟨[(local! c!"a", [other! c!"b", local! c!"d", local! c!"d"]), (local! c!"c", [])],
     [(local! c!"d", [local! c!"a", local! c!"a"]), (other! c!"b", [local! c!"a"])]⟩) := by
  decide +kernel

/-- A decidable form of the assumptions on files. -/
def cleanText (text : Str) : Bool :=
  match Parser.parseFile text with
  | some (.list .list stmts, st) => st.errs.isEmpty && (Meaning.calledIn stmts).all fun f =>
      decide (f ∉ Meaning.assigned stmts)
  | _ => false

theorem cleanText_of {text : Str} (h : cleanText text = true) : UsableText text := by
  unfold cleanText at h
  split at h
  · next stmts st he =>
    simp only [Bool.and_eq_true, List.all_eq_true, decide_eq_true_eq] at h
    exact C56_usable text stmts st he (by simpa using h.1) h.2
  · cases h

/-- The assumptions hold for the example. -/
example (depth : Nat) : Sound (worldOf cyclicOther) .always depth (projectOf cyclicText) := by
  refine (C62_build_partial _ _ depth _ (projectOf_searchable (by decide +kernel)) ?_ ?_).1
  · intro path _ h
    simpa [worldOf, Option.isSome_iff_ne_none] using h
  · intro path text _ h
    simp only [worldOf, cyclicOther, Option.map_eq_some_iff] at h
    obtain ⟨e, he, rfl⟩ := h
    have := List.mem_of_find?_eq_some he
    simp only [List.mem_singleton] at this
    subst this
    exact cleanText_of (by decide +kernel)

end Props
end Bant
