import Verif.Props.CommandEdits
import Verif.Props.CompDb
import Verif.Props.Print
import Verif.Props.Workspace
import Verif.Props.WorkspaceCmd
import Verif.Spec.CommandOutput

/-! Lemmas about the commands that do not write a table of targets. -/
namespace Bant
namespace Commands
open Query Headers Cli Rules GraphSpec CommandSpec Props

/-! ### The files -/

theorem load_iff {m : Machine} {ws : Workspace.Map} {pkg : BazelPackage} {ast : Node} :
    DepGraph.load (world m ws) pkg = some (some ast) ↔
      ∃ name content tree st, DepGraph.pathForPackage (world m ws) pkg = some name ∧
        m.fs.content name = some content ∧ Parser.parseFile content = some (tree, st) ∧
        Elab.elabFile (m.glob pkg) tree = some ast := by
  unfold DepGraph.load
  constructor
  · intro h
    split at h
    · cases h
    · next name hn =>
      split at h
      · cases h
      · next content hc =>
        split at h
        · cases h
        · next tree st hp =>
          obtain ⟨a, ha, he⟩ := Option.map_eq_some_iff.1 h
          cases he
          exact ⟨name, content, tree, st, hn, hc, hp, ha⟩
  · rintro ⟨name, content, tree, st, hn, hc, hp, ha⟩
    have hc : (world m ws).fs.content name = some content := hc
    have ha : Elab.elabFile ((world m ws).glob pkg) tree = some ast := ha
    simp [hn, hc, hp, ha]

theorem grownTo_of {m : Machine} {ws : Workspace.Map} {pattern : BazelPattern} {depth : Nat}
    {files l : Loaded} {now : Files} {g : DepGraph.Graph} (h : Followed m ws pattern depth files l now g)
    (ha : Ascending (files.map (·.1))) : GrownTo m ws pattern depth files l := by
  constructor
  · rw [← trees_keys, h.same]
    exact h.grown.order
  · intro pkg file
    have hnod := ha.nodup
    have hm : (pkg, file) ∈ l ↔ ∃ ast, (pkg, ast) ∈ now ∧
        (lookup files pkg).getD (added (world m ws) pkg ast) = file := by
      rw [h.listed]
      simp only [expanded, List.mem_map, Prod.mk.injEq]
      constructor
      · rintro ⟨e, he, rfl, h'⟩; exact ⟨e.2, he, h'⟩
      · rintro ⟨ast, he, h'⟩; exact ⟨_, he, rfl, h'⟩
    have hadd : ∀ ast, DepGraph.load (world m ws) pkg = some (some ast) →
        (added (world m ws) pkg ast = file ↔ ∃ name content, DepGraph.pathForPackage (world m ws) pkg = some name ∧
          m.fs.content name = some content ∧ ReadAs m true pkg name content file ∧ file.ast = ast) := by
      intro ast hl
      obtain ⟨name, content, tree, st, hn, hc, hp, he⟩ := load_iff.1 hl
      have hc' : (world m ws).fs.content name = some content := hc
      have : added (world m ws) pkg ast = ⟨name, ast, !st.errs.isEmpty⟩ := by simp [added, hn, hc', hp]
      rw [this]
      constructor
      · rintro rfl
        refine ⟨name, content, hn, hc, ⟨tree, st, hp, rfl, by simp, by simpa using he⟩, rfl⟩
      · rintro ⟨name', content', h1, h2, ⟨tree', st', h3, h4, h5, h6⟩, h7⟩
        rw [hn] at h1; cases h1
        rw [hc] at h2; cases h2
        rw [hp] at h3; cases h3
        obtain ⟨n, a, e⟩ := file
        simp only at h4 h5 h7
        subst h4 h7
        congr 1
        rw [Bool.eq_iff_iff, h5]
        simp
    rw [hm]
    constructor
    · rintro ⟨ast, h1, h2⟩
      rcases grown_lookup h.grown h1 with ⟨f, h3, h4⟩ | ⟨h3, h4⟩
      · rw [h4] at h2
        cases h2
        exact .inl h3
      · rw [h3] at h2
        obtain ⟨name, content, h5, h6, h7, _⟩ := (hadd ast h4).1 h2
        rcases (h.grown.each pkg ast).1 h1 with h8 | ⟨h8, _, h9⟩
        · obtain ⟨f, h10, _⟩ := mem_trees.1 h8
          exact absurd (List.mem_map.2 ⟨_, h10, rfl⟩) (lookup_none.1 h3)
        · exact .inr ⟨h8, h9, name, content, h5, h6, h7⟩
    · rintro (h1 | ⟨h1, h2, name, content, h3, h4, h5⟩)
      · exact ⟨file.ast, (h.grown.each _ _).2 (.inl (mem_trees.2 ⟨file, h1, rfl⟩)), by
          rw [(mem_lookup hnod).1 h1]; rfl⟩
      · have hl : DepGraph.load (world m ws) pkg = some (some file.ast) := by
          obtain ⟨tree, st, h6, _, _, h7⟩ := h5
          exact load_iff.2 ⟨name, content, tree, st, h3, h4, h6, by simpa using h7⟩
        exact ⟨file.ast, (h.grown.each _ _).2 (.inr ⟨h1, hl, h2⟩), by
          rw [lookup_none.2 h1]; exact (hadd _ hl).2 ⟨name, content, h3, h4, h5, rfl⟩⟩

theorem readAs_file {m : Machine} {evaluate : Bool} {pkg : BazelPackage} {name content : Str} {file : File}
    (h : CommandSpec.ReadAs m evaluate pkg name content file) : Print.FromFile file.ast := by
  obtain ⟨ast, st, h1, _, _, h2⟩ := h
  refine ⟨content, ast, st, h1, ?_⟩
  cases evaluate with
  | false => exact .inl (by simpa using h2)
  | true => exact .inr ⟨_, by simpa using h2⟩

theorem openedFor_file {m : Machine} {ws : Workspace.Map} {evaluate : Bool} {pattern : BazelPattern}
    {found : List Str} {l : Loaded} (h : OpenedFor m ws evaluate pattern found l) :
    ∀ f ∈ l, Print.FromFile f.2.ast := by
  intro f hf
  obtain ⟨n, c, _, h1⟩ := (h.each f.1 f.2).1 hf
  exact readAs_file h1

theorem grownTo_file {m : Machine} {ws : Workspace.Map} {pattern : BazelPattern} {depth : Nat} {files l : Loaded}
    (h : GrownTo m ws pattern depth files l) (hf : ∀ f ∈ files, Print.FromFile f.2.ast) :
    ∀ f ∈ l, Print.FromFile f.2.ast := by
  intro f hl
  rcases (h.each f.1 f.2).1 hl with h1 | ⟨_, _, n, c, _, _, h1⟩
  · exact hf f h1
  · exact readAs_file h1

/-- Nothing is missing in the files of dependencies. -/
theorem grown_complete {m : Machine} (hh : Healthy m) {ws : Workspace.Map} {pattern : BazelPattern} {depth : Nat}
    {files : Loaded} {now : Files} (h : Grown m ws pattern depth files now) (hf : ∀ f ∈ trees files, Complete f.2) :
    ∀ f ∈ now, Complete f.2 := by
  intro f hn
  rcases (h.each f.1 f.2).1 hn with h1 | ⟨_, h1, _⟩
  · exact hf f h1
  · obtain ⟨tree, h2, h3⟩ := loads_complete (w := world m ws) hh.readable hh.usable f.1
    rw [h1] at h2
    cases h2
    exact h3 _ rfl

theorem path_build {m : Machine} {ws : Workspace.Map} {pkg : BazelPackage} {path : Str}
    (h : DepGraph.pathForPackage (world m ws) pkg = some path) : IsBuild path := by
  unfold DepGraph.pathForPackage at h
  have : ∀ start : Str, ([c!"BUILD", c!"BUILD.bazel"].map (Workspace.join start)).find? (world m ws).fs.canRead =
      some path → IsBuild path := by
    intro start h
    obtain ⟨name, hn, rfl⟩ := List.mem_map.1 (List.mem_of_find?_eq_some h)
    exact ⟨name, hn, .inr ⟨_, rfl⟩⟩
  simp only [] at h
  split at h
  · exact this _ h
  · split at h
    · cases h
    · exact this _ h

/-- The files come from texts of BUILD files. -/
def FromTexts (m : Machine) (evaluate : Bool) (l : Loaded) : Prop :=
  ∀ f ∈ l, ∃ name content, IsBuild name ∧ m.fs.content name = some content ∧
    (CommandSpec.ReadAs m evaluate f.1 name content f.2 ∨ CommandSpec.ReadAs m true f.1 name content f.2)

/-- What is there when the command itself begins, without assumptions about its files. -/
theorem prepared_total {m : Machine} (hh : Healthy m) {flags : Flags} {cmd : Command} {pattern : BazelPattern}
    {ws : Workspace.Map} (hw : workspaceOf m = some ws) (hf : Findable m cmd pattern) :
    ∃ p, prepareIn m ws flags cmd pattern = some p ∧ p.workspace = ws ∧ (∀ f ∈ trees p.files, Complete f.2) ∧
      FromTexts m (evaluates flags cmd) p.files := by
  obtain ⟨hroots, hc⟩ := hf ws hw
  have hopen : ∃ files msg, opened m ws flags cmd pattern = some (files, msg) ∧
      FromTexts m (evaluates flags cmd) files := by
    cases hneed : needsProject cmd pattern with
    | false =>
      refine ⟨[], [], ?_, by simp [FromTexts]⟩
      unfold opened fill
      rw [hneed, if_neg (by simp)]
      simp [elaborateAll]
    | true =>
      obtain ⟨found, hfound⟩ := Option.ne_none_iff_exists'.1 (hc hneed)
      obtain ⟨files, msg, ho⟩ := opened_total hh hroots flags hfound
      obtain ⟨found', h1, _⟩ := opened_spec hneed ho
      refine ⟨files, msg, ho, fun f hf => ?_⟩
      obtain ⟨n, c, h2, h3⟩ := (h1.each f.1 f.2).1 hf
      obtain ⟨h4, h5, _⟩ := firstReadable_mem h2
      exact ⟨n, c, found_build h1.files n h4, h5, .inl h3⟩
  obtain ⟨files, msg, ho, htexts⟩ := hopen
  have hcomp := opened_complete hh ho
  by_cases hu : usesGraph cmd = true ∧ 0 ≤ depthOf flags cmd
  · obtain ⟨l, now, g, h1, h2⟩ := follow_spec hh ho hu.1 hu.2
    refine ⟨⟨ws, l, g, msg⟩, by rw [prepareIn, ho, Option.bind_some, h1]; rfl, rfl, ?_, ?_⟩
    · simp only [h2.same]
      exact grown_complete hh h2.grown hcomp
    · intro f hf
      rcases ((grownTo_of h2 (opened_ascending ho)).each f.1 f.2).1 hf with h3 | ⟨_, _, n, c, h3, h4, h5⟩
      · exact htexts f h3
      · exact ⟨n, c, path_build h3, h4, .inr h5⟩
  · refine ⟨⟨ws, files, {}, msg⟩, ?_, rfl, hcomp, htexts⟩
    have : follow m ws flags cmd pattern files = some (files, {}) := by
      unfold follow
      rw [if_neg]
      simpa using hu
    rw [prepareIn, ho, Option.bind_some, this]
    rfl

theorem fromTexts_file {m : Machine} {evaluate : Bool} {l : Loaded} (h : FromTexts m evaluate l) :
    ∀ f ∈ l, Print.FromFile f.2.ast := by
  intro f hf
  obtain ⟨n, c, _, _, h1 | h1⟩ := h f hf
  · exact readAs_file h1
  · exact readAs_file h1

/-! ### Printing -/

theorem visibility_complete {n : Node} (h : Searchable n) : Print.VisibilityComplete n := by
  intro r hr ty xs hvis
  obtain ⟨_, hv⟩ := Print.report_mem hr
  rw [hvis] at hv
  rcases hv with hv | hv | ⟨s, hm, kw, hk, hv⟩
  · cases hv
  · cases hv
  · obtain ⟨fn, ty', args, rfl⟩ := h.proper s hm
    cases hkw : kw.2 with
    | list ty' zs =>
      rw [hkw] at hv
      simp only [listOf, Option.some.injEq, Prod.mk.injEq] at hv
      obtain ⟨rfl, rfl⟩ := hv
      exact h.lists _ _ _ hm kw hk _ _ hkw
    | _ => rw [hkw] at hv; cases hv

theorem printed_shows {m : Machine} {flags : Flags} {pattern : BazelPattern} {files : Loaded} {out : Str}
    (hf : ∀ f ∈ files, Print.FromFile f.2.ast) (h : printed m flags pattern files = some out) :
    (flags.grep ≠ [] ∧ m.regex flags.grep = none ∧ out = []) ∨
      ∃ find, LooksFor m flags find ∧ Shows m flags pattern files find out := by
  have key : ∀ find, Print.printProject ⟨flags.onlyErrors, find, m.color⟩ pattern
      (files.map fun f => ⟨f.1, f.2.ast, f.2.hasErrors, m.callLoc f.1⟩) = some out →
      Shows m flags pattern files find out := by
    intro find h
    obtain ⟨chosen, h1, h2, h3⟩ := C68_selection _ _ _ (by
      intro f hf'
      obtain ⟨x, hx, rfl⟩ := List.mem_map.1 hf'
      exact hf x hx) _ h
    have he : Print.rulesIn ((files.map fun f => (⟨f.1, f.2.ast, f.2.hasErrors, m.callLoc f.1⟩ : Print.File)).filter
        fun f => !flags.onlyErrors || f.hasErrors) = rulesFor m flags files := by
      unfold rulesFor
      rw [List.filter_map]
      rfl
    simp only [he] at h1 h2 h3
    exact ⟨chosen, h1, h2, h3⟩
  unfold printed at h
  simp only [] at h
  split at h
  · next hg => exact .inr ⟨none, .all hg, key none h⟩
  · next hg =>
    split at h
    · next hn => cases h; exact .inl ⟨hg, hn, rfl⟩
    · next find hn => exact .inr ⟨some find, .regex hg hn, key _ h⟩

theorem printed_ends {m : Machine} {flags : Flags} {pattern : BazelPattern} {files : Loaded}
    (hf : ∀ f ∈ files, Print.FromFile f.2.ast) (hs : ∀ f ∈ files, Searchable f.2.ast)
    (hfind : ∀ find, LooksFor m flags (some find) → Within find ∧ ∀ s, find s ≠ some (0, 0)) :
    ∃ out, printed m flags pattern files = some out := by
  have key : ∀ find, (∀ f, find = some f → Within f ∧ ∀ s, f s ≠ some (0, 0)) →
      ∃ out, Print.printProject ⟨flags.onlyErrors, find, m.color⟩ pattern
        (files.map fun f => ⟨f.1, f.2.ast, f.2.hasErrors, m.callLoc f.1⟩) = some out := by
    intro find h
    refine C68_ends_partial _ _ _ ?_ ?_ h
    · intro f hf'
      obtain ⟨x, hx, rfl⟩ := List.mem_map.1 hf'
      exact hf x hx
    · intro f hf'
      obtain ⟨x, hx, rfl⟩ := List.mem_map.1 hf'
      exact visibility_complete (hs x hx)
  unfold printed
  simp only []
  split
  · exact key none (by simp)
  · next hg =>
    split
    · exact ⟨[], rfl⟩
    · next find hn =>
      exact key (some find) (by intro f h; cases h; exact hfind find (.regex hg hn))

/-! ### The external projects -/

theorem augment_sorted (fs : Workspace.FileSystem) {m : Workspace.Map} (h : Workspace.Sorted m) :
    Workspace.Sorted (Workspace.augment fs m).2 := by
  unfold Workspace.augment
  generalize fs.glob _ = dirs
  generalize false = flag
  induction dirs generalizing m flag with
  | nil => exact h
  | cons d dirs ih =>
    rw [List.foldl_cons]
    unfold Workspace.augmentStep
    simp only []
    repeat' split
    all_goals first
      | exact ih h _
      | exact ih (Workspace.assign_spec h _ _).1 _

theorem workspaceOf_sorted {m : Machine} {ws : Workspace.Map} (h : workspaceOf m = some ws) : Workspace.Sorted ws := by
  unfold workspaceOf at h
  obtain ⟨stmts, hs⟩ := C59_parsed m.fs
  have hl := C59_load m.fs stmts fun ws _ content hc => hs ws content hc
  simp only [] at hl
  rw [hl] at h
  split at h
  · next ws' hw =>
    cases h
    split at hw
    · cases hw
    · cases hw
      exact augment_sorted _ (Workspace.build_sorted (by simp [Workspace.Sorted]) _)
  · cases h

end Commands
end Bant
