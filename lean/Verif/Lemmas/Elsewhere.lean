import Verif.Spec.Elsewhere
import Verif.Lemmas.LayoutCommand

/-! Lemmas about BUILD files that a command does not look at. -/
namespace Bant
namespace Elsewhere
open Commands CommandSpec Cli Query Headers GraphSpec ElsewhereSpec

/-! ### The graph -/

section
variable {w w' : DepGraph.World} {first : Files}

/-- Everything in the last files is loaded alike, what was there at first apart. -/
def LoadedAlike (w w' : DepGraph.World) (first last : Files) : Prop :=
  (∀ pkg, DepGraph.load w pkg = some none → DepGraph.load w' pkg = some none) ∧
  ∀ pkg, lookup first pkg = none → lookup last pkg ≠ none → DepGraph.load w' pkg = DepGraph.load w pkg

theorem parseMissing_more (pkgs : List BazelPackage) {files files' : Files}
    (h : DepGraph.parseMissing w files pkgs = some files') :
    ∀ pkg, lookup files pkg ≠ none → lookup files' pkg ≠ none := by
  induction pkgs generalizing files with
  | nil => cases h; exact fun _ h => h
  | cons p ps ih =>
    rw [DepGraph.parseMissing] at h
    split at h
    · exact ih h
    · split at h
      · cases h
      · exact ih h
      · intro pkg hp
        refine ih h pkg ?_
        rw [lookup_insertNew]
        split
        · simp_all
        · exact hp

theorem rounds_more (n : Nat) {files files' : Files} {g g' : DepGraph.Graph} {todo : List BazelTarget}
    (h : DepGraph.rounds w files g todo n = some (files', g')) :
    ∀ pkg, lookup files pkg ≠ none → lookup files' pkg ≠ none := by
  have hr : ∀ {files g todo files' st}, DepGraph.round w files g todo = some (files', st) →
      ∀ pkg, lookup files pkg ≠ none → lookup files' pkg ≠ none := by
    intro files g todo files' st h
    unfold DepGraph.round at h
    simp only at h
    split at h
    · cases h
    · next hp =>
      obtain ⟨_, _, e⟩ := Option.map_eq_some_iff.1 h
      cases e
      exact parseMissing_more _ hp
  induction n generalizing files g todo with
  | zero =>
    obtain ⟨r, h1, h2⟩ := Option.map_eq_some_iff.1 h
    cases h2
    exact hr h1
  | succ n ih =>
    rw [DepGraph.rounds] at h
    split at h
    · cases h
    · next h1 =>
      split at h
      · cases h; exact hr h1
      · exact fun pkg hp => ih h pkg (hr h1 pkg hp)

theorem parseMissing_alike (pkgs : List BazelPackage) {files files' last : Files}
    (hf : ∀ pkg, lookup first pkg ≠ none → lookup files pkg ≠ none)
    (hl : ∀ pkg, lookup files' pkg ≠ none → lookup last pkg ≠ none)
    (ha : LoadedAlike w w' first last) (h : DepGraph.parseMissing w files pkgs = some files') :
    DepGraph.parseMissing w' files pkgs = some files' := by
  induction pkgs generalizing files with
  | nil => exact h
  | cons p ps ih =>
    rw [DepGraph.parseMissing] at h ⊢
    cases hp : lookup files p with
    | some x => rw [hp] at h; exact ih hf h
    | none =>
      rw [hp] at h
      simp only at h ⊢
      cases ho : DepGraph.load w p with
      | none => rw [ho] at h; cases h
      | some o =>
        rw [ho] at h
        cases o with
        | none =>
          rw [ha.1 p ho]
          exact ih hf h
        | some ast =>
          simp only at h
          have hk : ∀ pkg, lookup files pkg ≠ none → lookup (insertNew p ast files) pkg ≠ none := by
            intro pkg hn
            rw [lookup_insertNew]
            split
            · simp_all
            · exact hn
          have hin : lookup files' p ≠ none := by
            refine parseMissing_more ps h p ?_
            rw [lookup_insertNew]
            simp [hp]
          have hfirst : lookup first p = none := Classical.byContradiction fun hc => hf p hc hp
          rw [ha.2 p hfirst (hl p hin), ho]
          exact ih (fun pkg hn => hk pkg (hf pkg hn)) h

theorem round_alike {files last : Files} {g : DepGraph.Graph} {todo : List BazelTarget} {r : Files × DepGraph.Round}
    (hf : ∀ pkg, lookup first pkg ≠ none → lookup files pkg ≠ none)
    (hl : ∀ pkg, lookup r.1 pkg ≠ none → lookup last pkg ≠ none)
    (ha : LoadedAlike w w' first last) (h : DepGraph.round w files g todo = some r) :
    DepGraph.round w' files g todo = some r := by
  unfold DepGraph.round at h ⊢
  simp only at h ⊢
  split at h
  · cases h
  · next hp =>
    obtain ⟨_, h1, rfl⟩ := Option.map_eq_some_iff.1 h
    rw [parseMissing_alike _ hf hl ha hp]
    exact h

theorem rounds_alike (n : Nat) {files last : Files} {g g' : DepGraph.Graph} {todo : List BazelTarget}
    (hf : ∀ pkg, lookup first pkg ≠ none → lookup files pkg ≠ none)
    (ha : LoadedAlike w w' first last) (h : DepGraph.rounds w files g todo n = some (last, g')) :
    DepGraph.rounds w' files g todo n = some (last, g') := by
  induction n generalizing files g todo with
  | zero =>
    obtain ⟨r, h1, h2⟩ := Option.map_eq_some_iff.1 h
    cases h2
    rw [DepGraph.rounds, round_alike hf (fun _ h => h) ha h1]
    rfl
  | succ n ih =>
    have h' := h
    rw [DepGraph.rounds] at h ⊢
    cases h1 : DepGraph.round w files g todo with
    | none => rw [h1] at h; cases h
    | some r =>
      obtain ⟨now, st⟩ := r
      rw [h1] at h
      simp only at h
      have hmore : ∀ pkg, lookup files pkg ≠ none → lookup now pkg ≠ none := by
        have : DepGraph.rounds w files g todo 0 = some (now, st.graph) := by rw [DepGraph.rounds, h1]; rfl
        exact rounds_more 0 this
      have hlast : ∀ pkg, lookup now pkg ≠ none → lookup last pkg ≠ none := by
        split at h
        · cases h; exact fun _ h => h
        · exact rounds_more n h
      rw [round_alike hf hlast ha h1]
      simp only
      split at h
      · next hn => rw [if_pos hn]; exact h
      · next hn =>
        rw [if_neg hn]
        exact ih (fun pkg hp => hmore pkg (hf pkg hp)) h

theorem build_alike {pattern : BazelPattern} {depth : Int} {last : Files} {g : DepGraph.Graph}
    (ha : LoadedAlike w w' first last) (h : DepGraph.build w pattern depth first = some (last, g)) :
    DepGraph.build w' pattern depth first = some (last, g) := by
  unfold DepGraph.build at h ⊢
  split at h
  · cases h
  · exact rounds_alike _ (fun _ h => h) ha h

end

/-! ### A run -/

theorem wsFile_notBuild {name : Str} (h : name ∈ Workspace.wsFiles) : ¬ IsBuild name := by
  rintro ⟨b, hb, hn⟩
  simp only [Workspace.wsFiles, List.mem_cons, List.not_mem_nil, or_false] at h hb
  rcases hb with rfl | rfl <;> rcases h with rfl | rfl | rfl | rfl <;> revert hn <;> decide

theorem bazelrc_notBuild : ¬ IsBuild c!".bazelrc" := by
  rintro ⟨b, hb, hn⟩
  simp only [List.mem_cons, List.not_mem_nil, or_false] at hb
  rcases hb with rfl | rfl <;> revert hn <;> decide

theorem depthOf_reach (flags : Flags) {cmd : Command} (h : 0 ≤ depthOf flags cmd) :
    (depthOf flags cmd).toNat = reach flags cmd := by
  unfold depthOf reach limit at *
  cases cmd <;> simp at h ⊢ <;> split <;> simp_all [intMax] <;> omega

theorem follows_eq (cmd : Command) : usesGraph cmd = follows cmd := by
  cases cmd <;> rfl

section
variable {m m' : Machine} {flags : Flags} {cmd : Command} {pattern : BazelPattern} {ws : Workspace.Map}
  {found : List Str} {files : Loaded}

theorem unchanged (h : SameHere m m' flags cmd pattern ws found files) {name : Str}
    (hn : ¬ Elsewhere m flags cmd pattern ws found files name) : m'.fs.content name = m.fs.content name :=
  Classical.byContradiction fun hc => hn (h.changed name hc)

theorem load_here (h : SameHere m m' flags cmd pattern ws found files) :
    Workspace.load m'.fs = Workspace.load m.fs := by
  have hfs : m'.fs = { m.fs with content := m'.fs.content } := congrArg Machine.fs h.rest
  have hadd : Workspace.addProject m'.fs = Workspace.addProject m.fs := by rw [hfs]; rfl
  have hstep : ∀ name ∈ Workspace.wsFiles, ∀ r, Workspace.loadFile m'.fs r name = Workspace.loadFile m.fs r name := by
    intro name hn r
    unfold Workspace.loadFile
    rw [unchanged h fun e => wsFile_notBuild hn e.build, hadd]
  have hfold : ∀ (l : List Str) (r : Bool × Workspace.Map), (∀ n ∈ l, n ∈ Workspace.wsFiles) →
      l.foldlM (Workspace.loadFile m'.fs) r = l.foldlM (Workspace.loadFile m.fs) r := by
    intro l
    induction l with
    | nil => intro r _; rfl
    | cons n l ih =>
      intro r hl
      rw [List.foldlM_cons, List.foldlM_cons, hstep n (hl n (by simp))]
      congr 1
      funext r'
      exact ih r' fun x hx => hl x (by simp [hx])
  unfold Workspace.load
  rw [hfold _ _ fun n hn => hn]

theorem workspace_here (h : SameHere m m' flags cmd pattern ws found files) : workspaceOf m' = workspaceOf m := by
  have hfs : m'.fs = { m.fs with content := m'.fs.content } := congrArg Machine.fs h.rest
  have haug : Workspace.augment m'.fs = Workspace.augment m.fs := by rw [hfs]; rfl
  unfold workspaceOf
  rw [load_here h, haug]

theorem opened_found (h : SameHere m m' flags cmd pattern ws found files)
    (hs : Collect.collectBuildFiles m.tree m.symlink ws (searched cmd pattern) m.steps = some found) :
    opened m' ws flags cmd pattern = opened m ws flags cmd pattern := by
  have hg : m'.glob = m.glob := by rw [h.rest]
  have ht : m'.tree = m.tree := by rw [h.rest]
  have hy : m'.symlink = m.symlink := by rw [h.rest]
  have hn : m'.steps = m.steps := by rw [h.rest]
  unfold opened
  rw [hg, Layout.fill_alike ht hy hn]
  intro found' hc f hf
  rw [hs] at hc
  cases hc
  rw [unchanged h fun e => e.notFound hf]
  cases m.fs.content f with
  | none => exact Or.inl ⟨rfl, rfl⟩
  | some c => exact Or.inr ⟨c, c, rfl, rfl, rfl⟩

theorem opened_here (h : SameHere m m' flags cmd pattern ws found files)
    (hs : Starts m flags cmd pattern ws found files) :
    opened m' ws flags cmd pattern = opened m ws flags cmd pattern := opened_found h hs.opened.files

theorem path_here (h : SameHere m m' flags cmd pattern ws found files) (pkg : BazelPackage) :
    DepGraph.pathForPackage (world m' ws) pkg = DepGraph.pathForPackage (world m ws) pkg := by
  have hfs : m'.fs = { m.fs with content := m'.fs.content } := congrArg Machine.fs h.rest
  simp only [DepGraph.pathForPackage, world]
  rw [hfs]

/-- A package that is loaded alike. -/
theorem read_here (h : SameHere m m' flags cmd pattern ws found files) (hf : follows cmd = true) {t : BazelTarget}
    (ht : Reached m ws (searched cmd pattern) (reach flags cmd) files t) :
    DepGraph.load (world m' ws) t.package = DepGraph.load (world m ws) t.package ∧
      ∀ ast, added (world m' ws) t.package ast = added (world m ws) t.package ast := by
  have hg : m'.glob = m.glob := by rw [h.rest]
  unfold DepGraph.load added
  rw [path_here h]
  cases hp : DepGraph.pathForPackage (world m ws) t.package with
  | none => exact ⟨rfl, fun _ => rfl⟩
  | some path =>
    have hc : (world m' ws).fs.content path = (world m ws).fs.content path :=
      unchanged h fun e => e.notReached hf t ht hp
    simp only [hc]
    exact ⟨by simp only [world, hg], fun _ => trivial⟩

theorem follow_here (hh : Healthy m) (h : SameHere m m' flags cmd pattern ws found files) {msg : Str}
    (ho : opened m ws flags cmd pattern = some (files, msg)) :
    follow m' ws flags cmd pattern files = follow m ws flags cmd pattern files := by
  by_cases hu : (usesGraph cmd && decide (depthOf flags cmd ≥ 0)) = true
  · have hu' := hu
    simp only [Bool.and_eq_true, decide_eq_true_eq] at hu'
    obtain ⟨hu1, hd⟩ := hu'
    have hfol : follows cmd = true := by rw [← follows_eq]; exact hu1
    obtain ⟨l, now, g, h1, h2⟩ := follow_spec hh ho hu1 hd
    rw [depthOf_reach flags hd] at h2
    have hkey : ∀ pkg, lookup (trees files) pkg = none → lookup now pkg ≠ none →
        ∃ t, Reached m ws (searched cmd pattern) (reach flags cmd) files t ∧ t.package = pkg := by
      intro pkg hp hn
      cases hl : lookup now pkg with
      | none => exact absurd hl hn
      | some ast =>
        rcases (h2.grown.each pkg ast).1 (lookup_mem hl) with h3 | ⟨_, _, h3⟩
        · exact absurd (List.mem_map.2 ⟨_, h3, rfl⟩) (lookup_none.1 hp)
        · exact h3
    have halike : LoadedAlike (world m ws) (world m' ws) (trees files) now := by
      refine ⟨fun pkg hn => ?_, fun pkg hp hn => ?_⟩
      · unfold DepGraph.load at hn ⊢
        rw [path_here h]
        cases hp : DepGraph.pathForPackage (world m ws) pkg with
        | none => rfl
        | some path =>
          rw [hp] at hn
          simp only at hn
          split at hn
          · cases hn
          · split at hn
            · cases hn
            · simp at hn
      · obtain ⟨t, ht, rfl⟩ := hkey pkg hp hn
        exact (read_here h hfol ht).1
    unfold follow at h1 ⊢
    rw [if_pos hu] at h1 ⊢
    rw [if_pos hu]
    obtain ⟨r, h3, h4⟩ := Option.map_eq_some_iff.1 h1
    have hkeys : now.map (·.1) = r.1.map (·.1) := by
      rw [← h2.same, trees_keys, show l = expanded _ files r.1 from (Prod.ext_iff.1 h4).1.symm]
      simp only [expanded, List.map_map]
      rfl
    have hlook : ∀ pkg, lookup r.1 pkg ≠ none → lookup now pkg ≠ none := by
      intro pkg hn hc
      exact hn (lookup_none.2 (hkeys ▸ lookup_none.1 hc))
    have h5 : DepGraph.build (world m' ws) (depPattern cmd pattern) (depthOf flags cmd) (trees files) = some r :=
      build_alike (last := r.1) (g := r.2) ⟨halike.1, fun pkg hp hn => halike.2 pkg hp (hlook pkg hn)⟩ h3
    have h6 : expanded (world m' ws) files r.1 = expanded (world m ws) files r.1 := by
      unfold expanded
      refine List.map_congr_left fun f hf => ?_
      cases hl : lookup files f.1 with
      | some x => rfl
      | none =>
        have h7 : lookup (trees files) f.1 = none := by rw [lookup_trees, hl]; rfl
        obtain ⟨t, ht, e⟩ := hkey f.1 h7 (hlook f.1 fun hc => lookup_none.1 hc (List.mem_map.2 ⟨f, hf, rfl⟩))
        simp only [Option.getD_none]
        rw [← e, (read_here h hfol ht).2]
    change Option.map (fun r => (expanded (world m' ws) files r.1, r.2)) (DepGraph.build (world m' ws) _ _ _) =
      Option.map (fun r => (expanded (world m ws) files r.1, r.2)) (DepGraph.build (world m ws) _ _ _)
    rw [h5, show DepGraph.build (world m ws) (depPattern cmd pattern) (depthOf flags cmd) (trees files) = some r from h3,
      Option.map_some, Option.map_some, h6]
  · unfold follow
    rw [if_neg hu, if_neg hu]

theorem perform_here (h : SameHere m m' flags cmd pattern ws found files) (p : Prepared) :
    perform m' flags cmd pattern p = perform m flags cmd pattern p := by
  have hcwd : m'.cwd = m.cwd := by rw [h.rest]
  have hregex : m'.regex = m.regex := by rw [h.rest]
  have hcolor : m'.color = m.color := by rw [h.rest]
  have hcall : m'.callLoc = m.callLoc := by rw [h.rest]
  have hname : m'.nameLoc = m.nameLoc := by rw [h.rest]
  have hline : m'.line = m.line := by rw [h.rest]
  have hrc : m'.fs.content c!".bazelrc" = m.fs.content c!".bazelrc" := unchanged h fun e => bazelrc_notBuild e.build
  cases cmd with
  | dwyu =>
    have hs := h.sources rfl
    simp only [perform]
    rw [Layout.dwyu_same (env := ⟨m.fs.content, p.workspace, m.line, flags.ignoreKeep⟩)
      (env' := ⟨m'.fs.content, p.workspace, m'.line, flags.ignoreKeep⟩) (fun n => ?_) (fun n c c' h1 h2 => ?_)
      (fun r t n => by rw [hline]) rfl rfl]
    · have := congrArg Option.isNone (hs n)
      simp only [included, Option.isNone_map] at this
      rw [← Option.isNone_iff_eq_none, ← Option.isNone_iff_eq_none, this]
    · have := hs n
      simp only [included] at this h1 h2
      rw [h1, h2] at this
      simpa using this
  | print => simp only [perform, printed, hregex, hcolor, hcall]
  | parse => simp only [perform, printed, hregex, hcolor, hcall]
  | listTargets => simp only [perform, hname]
  | compilationDB => simp only [perform, hcwd, hrc]
  | compileFlags => simp only [perform, hrc]
  | libraryHeaders => rfl
  | genruleOutputs => rfl
  | canonicalizeDeps => rfl
  | listPackages => rfl
  | listWorkspace => rfl
  | aliasedBy => rfl
  | dependsOn => rfl
  | hasDependents => rfl

end

end Elsewhere
end Bant
