import Verif.Spec.Invariance
import Verif.Props.Commands

/-! Lemmas about what the commands depend on. -/
namespace Bant
namespace Commands
open Query Headers Cli Rules GraphSpec CommandSpec InvarianceSpec Props FileUtils FileSpec CollectSpec

/-! ### The graph -/

theorem parseMissing_congr {w w' : DepGraph.World} (h : ∀ pkg, DepGraph.load w' pkg = DepGraph.load w pkg)
    (pkgs : List BazelPackage) (files : Files) :
    DepGraph.parseMissing w' files pkgs = DepGraph.parseMissing w files pkgs := by
  induction pkgs generalizing files with
  | nil => rfl
  | cons pkg rest ih =>
    simp only [DepGraph.parseMissing, h, ih]

theorem rounds_congr {w w' : DepGraph.World} (h : ∀ pkg, DepGraph.load w' pkg = DepGraph.load w pkg)
    (n : Nat) (files : Files) (g : DepGraph.Graph) (todo : List BazelTarget) :
    DepGraph.rounds w' files g todo n = DepGraph.rounds w files g todo n := by
  have hr : ∀ files g todo, DepGraph.round w' files g todo = DepGraph.round w files g todo := by
    intro files g todo
    simp only [DepGraph.round, parseMissing_congr h]
  induction n generalizing files g todo with
  | zero => simp only [DepGraph.rounds, hr]
  | succ n ih => simp only [DepGraph.rounds, hr, ih]

theorem build_congr {w w' : DepGraph.World} (h : ∀ pkg, DepGraph.load w' pkg = DepGraph.load w pkg)
    (pattern : BazelPattern) (depth : Int) (files : Files) :
    DepGraph.build w' pattern depth files = DepGraph.build w pattern depth files := by
  simp only [DepGraph.build, rounds_congr h]

/-! ### A run -/

/-- What a run depends on. -/
theorem run_congr {m m' : Machine} {flags : Flags} {cmd : Command} {pattern : BazelPattern}
    (hload : Workspace.load m'.fs = Workspace.load m.fs)
    (haug : ∀ ws, Workspace.augment m'.fs ws = Workspace.augment m.fs ws)
    (hfill : ∀ ws, workspaceOf m = some ws → fill m' ws cmd pattern = fill m ws cmd pattern)
    (hglob : m'.glob = m.glob)
    (hl : ∀ ws pkg, DepGraph.load (world m' ws) pkg = DepGraph.load (world m ws) pkg)
    (hadd : ∀ ws pkg ast, added (world m' ws) pkg ast = added (world m ws) pkg ast)
    (hperf : ∀ p, prepare m flags cmd pattern = some (some p) →
      perform m' flags cmd pattern p = perform m flags cmd pattern p) :
    runCommand m' flags cmd pattern = runCommand m flags cmd pattern := by
  have hfollow : ∀ ws files, follow m' ws flags cmd pattern files = follow m ws flags cmd pattern files := by
    intro ws files
    unfold follow
    split
    · have : expanded (world m' ws) files = expanded (world m ws) files := by
        funext now
        simp only [expanded, hadd]
      change Option.map (fun r => (expanded (world m' ws) files r.1, r.2)) (DepGraph.build (world m' ws) _ _ _) =
        Option.map (fun r => (expanded (world m ws) files r.1, r.2)) (DepGraph.build (world m ws) _ _ _)
      rw [build_congr (hl ws), this]
    · rfl
  have hprep : prepare m' flags cmd pattern = prepare m flags cmd pattern := by
    unfold prepare
    rw [hload]
    cases hw : Workspace.load m.fs with
    | none => rfl
    | some o =>
      cases o with
      | none => rfl
      | some ws =>
        have hws : workspaceOf m = some (Workspace.augment m.fs ws).2 := by
          unfold workspaceOf; rw [hw]
        simp only [prepareIn, opened, haug, hfill _ hws, hglob, hfollow]
  unfold runCommand
  rw [hprep]
  cases hp : prepare m flags cmd pattern with
  | none => rfl
  | some o =>
    cases o with
    | none => rfl
    | some p => simp only [hperf p hp]

theorem fill_total {m : Machine} {ws : Workspace.Map} (hroots : Roots ws) {cmd : Command} {pattern : BazelPattern}
    {found : List Str}
    (hc : Collect.collectBuildFiles m.tree m.symlink ws (searched cmd pattern) m.steps = some found) :
    ∃ l msg, fill m ws cmd pattern = some (l, msg) := by
  unfold fill
  split
  · obtain ⟨q, hq⟩ := foldlM_addFound m ws _ found {} (by simp) (packageOf_defined hroots hc)
    change ∃ l msg, Option.map _ (Collect.fillFromPattern m.tree m.symlink ws m.fs.content m.base {}
      (searched cmd pattern) m.steps) = _
    unfold Collect.fillFromPattern
    simp only [hc, hq]
    exact ⟨_, _, rfl⟩
  · exact ⟨_, _, rfl⟩

/-- The same files are opened, if the first readable files of packages are read alike. -/
theorem fill_congr {m m' : Machine} {ws : Workspace.Map} (hroots : Roots ws) {cmd : Command} {pattern : BazelPattern}
    {found found' : List Str}
    (hc : Collect.collectBuildFiles m.tree m.symlink ws (searched cmd pattern) m.steps = some found)
    (hc' : Collect.collectBuildFiles m'.tree m'.symlink ws (searched cmd pattern) m'.steps = some found')
    (hnil : found' = [] ↔ found = [])
    (hfirst : ∀ pkg file, (∃ name content,
        firstReadable m' ws (searched cmd pattern).pattern.package.project pkg found' = some (name, content) ∧
          ReadAs m' false pkg name content file) ↔
      ∃ name content,
        firstReadable m ws (searched cmd pattern).pattern.package.project pkg found = some (name, content) ∧
          ReadAs m false pkg name content file) :
    fill m' ws cmd pattern = fill m ws cmd pattern := by
  cases hneed : needsProject cmd pattern with
  | false => unfold fill; rw [hneed]; rfl
  | true =>
    obtain ⟨l, msg, h1⟩ := fill_total hroots hc
    obtain ⟨l', msg', h2⟩ := fill_total (m := m') hroots hc'
    obtain ⟨f1, o1, rfl⟩ := fill_spec hneed h1
    obtain ⟨f2, o2, rfl⟩ := fill_spec hneed h2
    obtain rfl := Option.some.inj (o1.files.symm.trans hc)
    obtain rfl := Option.some.inj (o2.files.symm.trans hc')
    have : l' = l := sorted_ext o2.order o1.order fun x =>
      (o2.each x.1 x.2).trans ((hfirst x.1 x.2).trans (o1.each x.1 x.2).symm)
    subst this
    rw [h1, h2]
    simp only [hnil]

/-! ### The order of directories -/

theorem in_same {t t' : Tree} (h : SameEntries t t') {dir : Str} {e : Dirent} {path : Str} :
    In t' dir e path ↔ In t dir e path := by
  rw [in_iff, in_iff]
  have : (∃ es, t'.list dir = some es ∧ e ∈ es) ↔ ∃ es, t.list dir = some es ∧ e ∈ es := by
    cases hl : t.list dir with
    | none =>
      rw [h.none _ hl]
    | some es =>
      obtain ⟨es', h1, h2⟩ := h.some _ _ hl
      rw [h1]
      simp [h2.mem_iff]
  rw [this]

theorem isDir_same {t t' : Tree} (h : SameEntries t t') {path : Str} {e : Dirent} {i : Nat} :
    IsDir t' path e i ↔ IsDir t path e i := by
  have key : ∀ {t t' : Tree}, (∀ p, t'.stat p = t.stat p) → IsDir t path e i → IsDir t' path e i := by
    intro t t' hs hd
    cases hd with
    | plain h => exact .plain h
    | link h1 h2 => exact .link h1 ((hs _).trans h2)
  exact ⟨key fun p => (h.stat p).symm, key h.stat⟩

theorem below_same {t t' : Tree} (h : SameEntries t t') {symlink : Str → Bool} {start : Str} {names : List Str}
    {d : Str} : Below t' symlink start names d ↔ Below t symlink start names d := by
  constructor
  · intro hb
    induction hb with
    | start => exact .start
    | sub _ hin hd hs ih => exact .sub ih ((in_same h).1 hin) ((isDir_same h).1 hd) hs
  · intro hb
    induction hb with
    | start => exact .start
    | sub _ hin hd hs ih => exact .sub ih ((in_same h).2 hin) ((isDir_same h).2 hd) hs

theorem buildFileOf_same {t t' : Tree} (h : SameEntries t t') {symlink : Str → Bool} {ws : Workspace.Map}
    {pattern : BazelPattern} {names : List Str} {pkg : BazelPackage} {file : Str} :
    BuildFileOf t' symlink ws pattern names pkg file ↔ BuildFileOf t symlink ws pattern names pkg file := by
  unfold BuildFileOf
  simp only [in_same h, isDir_same h, below_same h]

theorem named_same {t t' : Tree} (h : SameEntries t t') (hn : Named t) : Named t' := by
  intro dir es' hl'
  cases hl : t.list dir with
  | none => rw [h.none _ hl] at hl'; cases hl'
  | some es =>
    obtain ⟨es2, h1, h2⟩ := h.some _ _ hl
    rw [hl'] at h1
    cases h1
    obtain ⟨h3, h4⟩ := hn dir es hl
    exact ⟨(h2.map (·.name)).nodup_iff.2 h3, fun e he => h4 e (h2.mem_iff.1 he)⟩

/-- What is found in an orderly project. -/
theorem orderly_found {t : Tree} {symlink : Str → Bool} {ws : Workspace.Map} {pattern : BazelPattern} {steps : Nat}
    (hn : Named t)
    (hfin : ∀ start, Start ws pattern.pattern.package start →
      ∃ dirs : List Str, dirs.length ≤ steps ∧ ∀ names d, Below t symlink start names d → d ∈ dirs)
    (hap : ∀ start, Start ws pattern.pattern.package start → Apart t symlink start) :
    ∃ found, Collect.collectBuildFiles t symlink ws pattern steps = some found ∧
      ∀ f, f ∈ found ↔ ∃ names pkg, BuildFileOf t symlink ws pattern names pkg f ∧ ∀ n ∈ names, n ∉ skipped := by
  unfold Collect.collectBuildFiles
  cases hs : Collect.searchDir ws pattern with
  | none =>
    refine ⟨[], rfl, fun f => ?_⟩
    simp only [List.not_mem_nil, false_iff]
    rintro ⟨names, pkg, ⟨start, dir, e, hst, _⟩, _⟩
    rw [Collect.searchDir_iff.2 hst] at hs
    cases hs
  | some start =>
    have hst := Collect.searchDir_iff.1 hs
    obtain ⟨dirs, hlen, hdirs⟩ := hfin start hst
    obtain ⟨files, hw, _, hfiles⟩ := C33_tree_partial t (Collect.wantDir symlink pattern.isRecursive)
      Collect.isBuildFile start dirs hn
      (fun d hd => by obtain ⟨names, h, _⟩ := Collect.entered_below hn hd; exact hdirs names d h)
      (by
        intro d₁ e₁ p₁ d₂ e₂ p₂ i h1 h2 h3 h4 h5 h6 h7
        obtain ⟨n₁, b1, _⟩ := Collect.entered_below hn h1
        obtain ⟨n₂, b2, _⟩ := Collect.entered_below hn h4
        exact hap start hst n₁ d₁ e₁ p₁ n₂ d₂ e₂ p₂ i b1 h2 h3 b2 h5 h6 h7)
    exact ⟨files, hw steps hlen, fun f => (hfiles f).trans (Collect.wanted_iff hn hs f)⟩

/-- If there is only one file for each package, it is the first. -/
theorem firstReadable_iff {m : Machine} {ws : Workspace.Map} {project : Str} {pkg : BazelPackage} {found : List Str}
    (h : ∀ f ∈ found, ∀ g ∈ found, Collect.packageOf ws f project = some (some pkg) →
      Collect.packageOf ws g project = some (some pkg) → f = g) {name content : Str} :
    firstReadable m ws project pkg found = some (name, content) ↔
      name ∈ found ∧ Collect.packageOf ws name project = some (some pkg) ∧ m.fs.content name = some content := by
  constructor
  · intro hf
    obtain ⟨h1, h2, h3⟩ := firstReadable_mem hf
    exact ⟨h1, h3, h2⟩
  · rintro ⟨h1, h2, h3⟩
    induction found with
    | nil => cases h1
    | cons f found ih =>
      rw [firstReadable]
      by_cases hp : Collect.packageOf ws f project = some (some pkg)
      · have := h f (by simp) name h1 hp h2
        subst this
        rw [if_pos hp, h3]
      · rw [if_neg hp]
        have hne : name ≠ f := by rintro rfl; exact hp h2
        exact ih (fun f hf g hg => h f (by simp [hf]) g (by simp [hg])) ((List.mem_cons.1 h1).resolve_left hne)

end Commands
end Bant
