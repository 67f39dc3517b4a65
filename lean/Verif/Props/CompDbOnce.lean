import Verif.Props.CompDb

/-! Which include directories are given once (C78). -/
namespace Bant
namespace Props
open Parser Query Rules CompDb CompDbSpec

/-- `d` is given at most once, and only if its owner has been seen. -/
def GivenOnce (d owner : Str) (o : Once) : Prop :=
  o.result.count d ≤ 1 ∧ (d ∈ o.result → owner ∈ o.seen)

theorem givenOnce_add {d owner : Str} {o : Once} (h : GivenOnce d owner o) (k : Str) (vs : List Str)
    (hv : d ∈ vs → k = owner) (hc : vs.count d ≤ 1) : GivenOnce d owner (o.add k vs) := by
  unfold Once.add
  split
  · exact h
  · rename_i hk
    by_cases hd : d ∈ vs
    · have hko := hv hd
      subst hko
      have hn : d ∉ o.result := fun hm => hk (h.2 hm)
      refine ⟨?_, fun _ => List.mem_cons_self⟩
      rw [List.count_append, List.count_eq_zero_of_not_mem hn, Nat.zero_add]
      exact hc
    · refine ⟨?_, fun hm => ?_⟩
      · rw [List.count_append, List.count_eq_zero_of_not_mem hd, Nat.add_zero]
        exact h.1
      · rcases List.mem_append.1 hm with hm | hm
        · exact List.mem_cons_of_mem _ (h.2 hm)
        · exact absurd hm hd

theorem givenOnce_dir {d owner : Str} {o : Once} (h : GivenOnce d owner o) (k : Str) (hk : k = d → k = owner) :
    GivenOnce d owner (o.add k [k]) :=
  givenOnce_add h k [k] (fun hm => hk (List.mem_singleton.1 hm).symm) (by rw [List.count_singleton]; split <;> simp)

theorem givenOnce_fold {α : Type} {d owner : Str} {f : Once → α → Once} :
    ∀ (l : List α), (∀ x ∈ l, ∀ o, GivenOnce d owner o → GivenOnce d owner (f o x)) → ∀ o, GivenOnce d owner o →
      GivenOnce d owner (l.foldl f o)
  | [], _, _, h => h
  | x :: l, hf, o, h => givenOnce_fold l (fun y hy => hf y (List.mem_cons_of_mem _ hy)) _ (hf x List.mem_cons_self o h)

theorem givenOnce_foldM {α : Type} {d owner : Str} {f : Once → α → Option Once} :
    ∀ (l : List α), (∀ x ∈ l, ∀ o o', f o x = some o' → GivenOnce d owner o → GivenOnce d owner o') → ∀ o o',
      l.foldlM f o = some o' → GivenOnce d owner o → GivenOnce d owner o'
  | [], _, o, o', h, hg => by
    simp only [List.foldlM_nil, Option.pure_def, Option.some.injEq] at h
    exact h ▸ hg
  | x :: l, hf, o, o', h, hg => by
    rw [List.foldlM_cons] at h
    simp only [Option.bind_eq_bind, Option.bind_eq_some_iff] at h
    obtain ⟨o1, h1, h2⟩ := h
    exact givenOnce_foldM l (fun y hy => hf y (List.mem_cons_of_mem _ hy)) o1 o' h2 (hf x List.mem_cons_self o o1 h1 hg)

/-- Everything that gives `d` belongs to one owner: the directory itself, or a project. -/
structure Owned (ws : Workspace.Map) (files : List (BazelPackage × Node)) (d owner : Str) : Prop where
  declared : ∀ pkg r i, CcRule files pkg r → i ∈ stringsOf r.includes → pkg.fullyQualifiedFile ws i = d → d = owner
  made : ∀ p s, generated p ++ '/' :: s = d → d = owner
  projects : ∀ p dir, Workspace.findPath ws p = some dir → d = dir ∨ d = generated p → p = owner ∧ dir ≠ generated p

theorem givenOnce_rule {ws : Workspace.Map} {files : List (BazelPackage × Node)} {d owner : Str}
    (ho : Owned ws files d owner) {pkg : BazelPackage} {r : Result} (hr : CcRule files pkg r)
    (hi : stringList r.includes = some (stringsOf r.includes)) {o o' : Once}
    (h : addRule ws pkg o r = some o') (hg : GivenOnce d owner o) : GivenOnce d owner o' := by
  have made : ∀ {p s : Str} {o : Once}, GivenOnce d owner o →
      GivenOnce d owner (o.add (generated p ++ '/' :: s) [generated p ++ '/' :: s]) := by
    intro p s o hg
    exact givenOnce_dir hg _ fun he => by rw [he]; exact ho.made p s he
  unfold addRule at h
  simp only [hi, Option.bind_eq_bind, Option.bind_some] at h
  obtain ⟨o1, t, deps, h1, h2, rfl⟩ : ∃ (o1 : Once) (t : BazelTarget) (deps : List Str), (if r.includePrefix = [] then some ((stringsOf r.includes).foldl
      (fun o d => o.add (pkg.fullyQualifiedFile ws d) [pkg.fullyQualifiedFile ws d]) o) else
        (virtualDir (pkg.qualifiedTarget r.name)).map fun d => ((stringsOf r.includes).foldl
      (fun o d => o.add (pkg.fullyQualifiedFile ws d) [pkg.fullyQualifiedFile ws d]) o).add d [d]) = some o1 ∧
      pkg.qualifiedTarget r.name = some t ∧
      deps.foldl (addDep ws pkg) (protobufHack t (r.rule = c!"proto_library") o1) = o' := by
    split at h
    · rename_i hp
      simp only [Option.bind_eq_some_iff] at h
      obtain ⟨t, h2, deps, h3, h4⟩ := h
      exact ⟨_, t, deps, by rw [if_pos hp], h2, by simpa using h4⟩
    · rename_i hp
      simp only [Option.bind_eq_some_iff] at h
      obtain ⟨o1, h1, t, h2, deps, h3, h4⟩ := h
      exact ⟨o1, t, deps, by rw [if_neg hp, h1], h2, by simpa using h4⟩
  have g0 : GivenOnce d owner ((stringsOf r.includes).foldl
      (fun o d => o.add (pkg.fullyQualifiedFile ws d) [pkg.fullyQualifiedFile ws d]) o) :=
    givenOnce_fold _ (fun i hi o hg => givenOnce_dir hg _ fun he => by
      rw [he]; exact ho.declared pkg r i hr hi he) _ hg
  have g1 : GivenOnce d owner o1 := by
    split at h1
    · cases h1; exact g0
    · obtain ⟨v, hv, rfl⟩ := Option.map_eq_some_iff.1 h1
      rw [h2] at hv
      unfold virtualDir at hv
      simp only [Option.ite_none_left_eq_some, Option.some.injEq] at hv
      obtain ⟨_, rfl⟩ := hv
      have := made (p := t.package.project) (s := t.package.path ++ c!"/_virtual_includes/" ++ t.name) g0
      simpa [generated] using this
  have g2 : GivenOnce d owner (protobufHack t (r.rule = c!"proto_library") o1) := by
    have g3 : GivenOnce d owner (if c!"protobuf-extra-include-hack" ∈ o1.seen then o1
        else protoTargets.foldl (fun o x =>
          let dir := c!"bazel-bin/external/" ++ t.package.project.drop 1 ++ c!"/src/google/protobuf/" ++ x.1 ++
            c!"_virtual_includes/" ++ x.2
          o.add dir [dir]) (o1.add c!"protobuf-extra-include-hack" [])) := by
      split
      · exact g1
      · refine givenOnce_fold _ (fun x _ o hg => ?_) _ (givenOnce_add g1 _ [] (fun h => by cases h) (by simp))
        have := made (p := t.package.project) (s := c!"src/google/protobuf/" ++ x.1 ++ c!"_virtual_includes/" ++ x.2) hg
        simpa [generated] using this
    by_cases hc : ¬ contains c!"protobuf" t.package.project = true
    · rw [protobufHack, if_pos hc]
      exact g1
    · rw [protobufHack, if_neg hc]
      have key : ∀ o2, GivenOnce d owner o2 → GivenOnce d owner (if decide (r.rule = c!"proto_library") = true then
          o2.add (c!"bazel-bin/external/" ++ t.package.project.drop 1 ++ c!"/src/google/protobuf/" ++
            c!"_virtual_includes/" ++ t.name) [c!"bazel-bin/external/" ++ t.package.project.drop 1 ++
            c!"/src/google/protobuf/" ++ c!"_virtual_includes/" ++ t.name] else o2) := by
        intro o2 g3
        split
        · have := made (p := t.package.project) (s := c!"src/google/protobuf/" ++ c!"_virtual_includes/" ++ t.name) g3
          simpa [generated] using this
        · exact g3
      exact key _ g3
  refine givenOnce_fold _ (fun dep _ o hg => ?_) _ g2
  unfold addDep
  split
  · exact hg
  · simp only
    split
    · exact hg
    · rename_i u _ _
      cases hf : Workspace.findPath ws u.package.project with
      | none => exact givenOnce_add hg _ [] (fun h => by cases h) (by simp)
      | some dir =>
        refine givenOnce_add hg _ _ (fun hm => ?_) ?_
        · simp only [List.mem_cons, List.not_mem_nil, or_false] at hm
          exact (ho.projects _ dir hf hm).1
        · by_cases h1 : d = dir ∨ d = generated u.package.project
          · have hne := (ho.projects _ dir hf h1).2
            have hn : [dir, c!"bazel-bin/external/" ++ u.package.project.drop 1].Nodup := by
              simp only [List.nodup_cons, List.mem_singleton, List.not_mem_nil, not_false_eq_true, List.nodup_nil,
                and_true]
              exact hne
            exact List.nodup_iff_count.1 hn d
          · rw [List.count_eq_zero_of_not_mem]
            · omega
            · simpa [generated] using h1

theorem givenOnce_dirs {ws : Workspace.Map} {files : List (BazelPackage × Node)} {dirs : List Str} {d owner : Str}
    (hs : ∀ f ∈ files, Searchable f.2) (h : incDirs ws files = some dirs) (h1 : d ≠ c!".") (h2 : d ≠ c!"bazel-bin")
    (ho : Owned ws files d owner) : dirs.count d ≤ 1 := by
  obtain ⟨o, h3, rfl⟩ := Option.map_eq_some_iff.1 h
  rw [List.count_cons_of_ne (Ne.symm h1), List.count_cons_of_ne (Ne.symm h2)]
  refine (givenOnce_foldM (d := d) (owner := owner) files ?_ {} o h3 ⟨by simp, by simp⟩).1
  intro f hf o o' hadd hg
  rw [addFile_eq (hs f hf)] at hadd
  refine givenOnce_foldM _ ?_ o o' hadd hg
  intro r hr o o' hadd hg
  exact givenOnce_rule ho ⟨f.2, hf, hr⟩ (rule_lists (hs f hf) hr).1 hadd hg

/-- **C78**, each is given once: all directories that are not those of another project; but for the current and the
output directory. -/
theorem C78_once_partial (ws : Workspace.Map) (files : List (BazelPackage × Node)) (dirs : List Str)
    (hs : ∀ f ∈ files, Searchable f.2) (h : incDirs ws files = some dirs) (d : Str) (h1 : d ≠ c!".")
    (h2 : d ≠ c!"bazel-bin") (h3 : ∀ p dir, Workspace.findPath ws p = some dir → d ≠ dir ∧ d ≠ generated p) :
    dirs.count d ≤ 1 :=
  givenOnce_dirs (owner := d) hs h h1 h2 ⟨fun _ _ _ _ _ _ => rfl, fun _ _ _ => rfl, fun p dir hf hd =>
    absurd hd (not_or.2 (h3 p dir hf))⟩

/-- **C78**, the directories of another project are given once, if they do not belong to a second one, and no rule
declares them. -/
theorem C78_project_once_partial (ws : Workspace.Map) (files : List (BazelPackage × Node)) (dirs : List Str)
    (hs : ∀ f ∈ files, Searchable f.2) (h : incDirs ws files = some dirs) (d p : Str) (h1 : d ≠ c!".")
    (h2 : d ≠ c!"bazel-bin")
    (h3 : ∀ p' dir, Workspace.findPath ws p' = some dir → d = dir ∨ d = generated p' → p' = p ∧ dir ≠ generated p')
    (h4 : ∀ pkg r i, CcRule files pkg r → i ∈ stringsOf r.includes → pkg.fullyQualifiedFile ws i ≠ d)
    (h5 : ∀ q s, generated q ++ '/' :: s ≠ d) : dirs.count d ≤ 1 :=
  givenOnce_dirs (owner := p) hs h h1 h2 ⟨fun pkg r i hr hi he => absurd he (h4 pkg r i hr hi),
    fun q s he => absurd he (h5 q s), h3⟩

/-- A directory that is declared by two rules is given once; the directory of a project that is declared, too, is not. -/
example : incDirs [(⟨c!"foo", []⟩, c!"external/foo")]
    [(⟨[], c!"p"⟩, treeOf c!"cc_library(name = \"l\", includes = [\"inc\"], deps = [\"@foo//:x\", \":y\"])\ncc_library(name = \"m\", includes = [\"inc\"], deps = [\"@foo//:z\"])")] =
      some [c!".", c!"bazel-bin", c!"p/inc", c!"external/foo", c!"bazel-bin/external/foo"] ∧
    incDirs [(⟨c!"foo", []⟩, c!"external/foo")]
    [(⟨[], []⟩, treeOf c!"cc_library(name = \"l\", includes = [\"external/foo\"], deps = [\"@foo//:x\"])")] =
      some [c!".", c!"bazel-bin", c!"external/foo", c!"external/foo", c!"bazel-bin/external/foo"] := by decide +kernel

end Props
end Bant
