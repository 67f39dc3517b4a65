import Verif.Lemmas.Elsewhere
import Verif.Props.SameRules

/-! Properties: files that a command does not look at. -/
namespace Bant
namespace Props
open Commands CommandSpec Cli GraphSpec ElsewhereSpec Query

/-- **C104**: if other BUILD files are changed than those that are found for the pattern and those of packages with
targets that are reached from there, then a command prints the same with the same status. It does not matter what is
in them, whether they have errors, or can be read. -/
theorem C104_elsewhere {m m' : Machine} (hh : Healthy m) {flags : Flags} {cmd : Command} {pattern : BazelPattern}
    {ws : Workspace.Map} {found : List Str} {files : Loaded} (hs : Starts m flags cmd pattern ws found files)
    (h : SameHere m m' flags cmd pattern ws found files) :
    runCommand m' flags cmd pattern = runCommand m flags cmd pattern := by
  have hprep : prepareIn m' ws flags cmd pattern = prepareIn m ws flags cmd pattern := by
    unfold prepareIn
    rw [Elsewhere.opened_here h hs]
    cases hneed : needsProject cmd pattern with
    | true =>
      rw [starts_opened hh hs hneed]
      simp only [Option.bind_some, Elsewhere.follow_here hh h (starts_opened hh hs hneed)]
    | false =>
      have hc : cmd = .listWorkspace := by
        unfold needsProject at hneed
        cases cmd <;> simp_all
      subst hc
      rfl
  rw [run_eq ((Elsewhere.workspace_here h).trans hs.workspace), run_eq hs.workspace, hprep]
  simp only [Elsewhere.perform_here h]

/-- **C104** for commands that do not follow dependencies: only the files that are found for the pattern matter, whatever
is in them. -/
theorem C104_pattern {m m' : Machine} {flags : Flags} {cmd : Command} {pattern : BazelPattern}
    {ws : Workspace.Map} {found : List Str} (hw : workspaceOf m = some ws)
    (hc : Collect.collectBuildFiles m.tree m.symlink ws (searched cmd pattern) m.steps = some found)
    (hcmd : cmd = .print ∨ cmd = .canonicalizeDeps ∨ cmd = .aliasedBy ∨ cmd = .listWorkspace)
    (hrest : m' = { m with fs := { m.fs with content := m'.fs.content }, base := m'.base })
    (hchanged : ∀ name, m'.fs.content name ≠ m.fs.content name → IsBuild name ∧ name ∉ found) :
    runCommand m' flags cmd pattern = runCommand m flags cmd pattern := by
  have hf : follows cmd = false := by rcases hcmd with rfl | rfl | rfl | rfl <;> rfl
  have h : SameHere m m' flags cmd pattern ws found [] :=
    ⟨hrest, fun name hn => ⟨(hchanged name hn).1, (hchanged name hn).2, by simp [hf]⟩,
      by rcases hcmd with rfl | rfl | rfl | rfl <;> simp⟩
  have hfollow : ∀ files, follow m' ws flags cmd pattern files = follow m ws flags cmd pattern files := by
    intro files
    unfold follow
    rw [Elsewhere.follows_eq, hf]
    rfl
  have hprep : prepareIn m' ws flags cmd pattern = prepareIn m ws flags cmd pattern := by
    unfold prepareIn
    simp only [Elsewhere.opened_found h hc, hfollow]
  rw [run_eq ((Elsewhere.workspace_here h).trans hw), run_eq hw, hprep]
  simp only [Elsewhere.perform_here h]

/-! ### Examples -/

/-- Three packages; nothing in the first leads to the third. -/
def threePackages : List (Str × Str) :=
  [(c!"p/BUILD", c!"cc_library(name=\"a\",deps=[\"//q:b\"])"),
   (c!"q/BUILD", c!"cc_library(name=\"b\")"),
   (c!"r/BUILD", c!"cc_library(name=\"c\",deps=[\"//p:a\"])")]

/-- The text of one file is another. -/
def overwritten (texts : List (Str × Str)) (file text : Str) : Machine :=
  { disk texts with fs := { (disk texts).fs with
      content := fun p => if plainPath p = file then some text else (disk texts).fs.content p } }

theorem overwritten_same {texts : List (Str × Str)} {file text : Str} :
    overwritten texts file text = { disk texts with
      fs := { (disk texts).fs with content := (overwritten texts file text).fs.content },
      base := (overwritten texts file text).base } := rfl

theorem plainPath_eq (p : Str) : p = plainPath p ∨ p = '.' :: '/' :: plainPath p := by
  unfold plainPath
  split
  · exact .inr rfl
  · exact .inl rfl

/-- The files of packages with targets that are reached are all loaded. -/
theorem reached_loaded {m : Machine} (hh : Healthy m) {flags : Flags} {cmd : Command} {pattern : BazelPattern}
    {ws : Workspace.Map} {found : List Str} {files : Loaded} (hs : Starts m flags cmd pattern ws found files)
    (hu : follows cmd = true) (hd : 0 ≤ depthOf flags cmd) {name : Str}
    (hp : (prepareIn m ws flags cmd pattern).map (fun p =>
      p.files.all fun f => decide (DepGraph.pathForPackage (world m ws) f.1 ≠ some name)) = some true) :
    ∀ t, Reached m ws (searched cmd pattern) (reach flags cmd) files t →
      DepGraph.pathForPackage (world m ws) t.package ≠ some name := by
  intro t ht hpath
  have hneed : needsProject cmd pattern = true := by cases cmd <;> first | rfl | cases hu
  have ho := starts_opened hh hs hneed
  obtain ⟨l, now, g, h1, h2⟩ := follow_spec hh ho (by rw [Elsewhere.follows_eq]; exact hu) hd
  rw [Elsewhere.depthOf_reach flags hd] at h2
  rw [prepareIn, ho, Option.bind_some, h1] at hp
  simp only [Option.map_some, Option.some.injEq, List.all_eq_true, decide_eq_true_eq] at hp
  obtain ⟨ast, ha⟩ := path_load hh hpath
  have hin : ∃ a, (t.package, a) ∈ now := by
    by_cases hk : t.package ∈ files.map (·.1)
    · obtain ⟨f, hf, e⟩ := List.mem_map.1 hk
      exact ⟨f.2.ast, (h2.grown.each _ _).2 (.inl (mem_trees.2 ⟨f.2, by rw [← e]; exact hf, rfl⟩))⟩
    · exact ⟨ast, (h2.grown.each _ _).2 (.inr ⟨hk, ha, t, ht, rfl⟩)⟩
  obtain ⟨a, hin⟩ := hin
  rw [← h2.same] at hin
  obtain ⟨f, hf, _⟩ := mem_trees.1 hin
  exact hp _ hf hpath

/-- The third package can be anything, even not a BUILD file at all; what is printed for the first is the same. The
second cannot. -/
example :
    runCommand (overwritten threePackages c!"r/BUILD" c!"cc_library(name = [[[ :-(") (steps 3) .dependsOn (pat c!"//p:all") =
      runCommand (disk threePackages) (steps 3) .dependsOn (pat c!"//p:all") ∧
    (runCommand (disk threePackages) { steps 3 with format := .csv } .dependsOn (pat c!"//p:all")).map (·.out) =
      some c!"\"library\",\"depends-on\"\n\"//p:a\",\"//q:b\"\n" ∧
    runCommand (overwritten threePackages c!"q/BUILD" c!"cc_library(name=\"b\",deps=[\"//r:c\"])") (steps 3) .dependsOn
      (pat c!"//p:all") ≠ runCommand (disk threePackages) (steps 3) .dependsOn (pat c!"//p:all") := by
  refine ⟨?_, ?_, ?_⟩
  · have hcl : ∀ e ∈ threePackages, cleanText e.2 = true := by decide +kernel
    obtain ⟨found, files, hs, _⟩ := disk_starts hcl (by decide +kernel) (steps 3) .dependsOn (pat c!"//p:all")
      (by decide +kernel) (by decide)
    refine C104_elsewhere (disk_healthy hcl) hs ⟨overwritten_same, fun name hn => ?_, by simp⟩
    have hp : plainPath name = c!"r/BUILD" := by
      refine Classical.byContradiction fun hc => hn ?_
      simp [overwritten, hc]
    have hname := plainPath_eq name
    rw [hp] at hname
    have hfound : found = [c!"p/BUILD"] := Option.some.inj (hs.opened.files.symm.trans (by decide +kernel))
    rcases hname with rfl | rfl
    · exact ⟨⟨c!"BUILD", by decide, by decide⟩, by rw [hfound]; decide, fun _ =>
        reached_loaded (disk_healthy hcl) hs rfl (by decide) (by decide +kernel)⟩
    · exact ⟨⟨c!"BUILD", by decide, by decide⟩, by rw [hfound]; decide, fun _ =>
        reached_loaded (disk_healthy hcl) hs rfl (by decide) (by decide +kernel)⟩
  · decide +kernel
  · decide +kernel

/-- `print` is only about the files of the pattern. -/
example : ∀ flags text, runCommand (overwritten threePackages c!"q/BUILD" text) flags .print (pat c!"//p:all") =
    runCommand (disk threePackages) flags .print (pat c!"//p:all") := by
  intro flags text
  refine C104_pattern (ws := []) (found := [c!"p/BUILD"]) (by decide +kernel) (by decide +kernel) (.inl rfl)
    overwritten_same fun name hn => ?_
  have hp : plainPath name = c!"q/BUILD" := by
    refine Classical.byContradiction fun hc => hn ?_
    simp [overwritten, hc]
  have hname := plainPath_eq name
  rw [hp] at hname
  rcases hname with rfl | rfl
  · exact ⟨⟨c!"BUILD", by decide, by decide⟩, by decide⟩
  · exact ⟨⟨c!"BUILD", by decide, by decide⟩, by decide⟩

end Props
end Bant
