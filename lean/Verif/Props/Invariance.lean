import Verif.Props.Commands
import Verif.Lemmas.Invariance

/-! What does not matter for the commands (C95, C96). -/
namespace Bant
namespace Props
open Commands Cli Query Rules Headers GraphSpec CommandSpec InvarianceSpec FileUtils FileSpec CollectSpec

/-! ## C95: the order of directories -/

/-- **C95**, full statement: no command depends on the order in which the entries of directories are listed, nor
on where things are in memory. -/
def C95_statement : Prop :=
  ∀ (m m' : Machine) (flags : Flags) (cmd : Command) (pattern : BazelPattern),
    SameMachine m m' → m'.steps = m.steps →
    runCommand m' flags cmd pattern = runCommand m flags cmd pattern

/-- **C95** if the directories are a tree with one BUILD file for each package. -/
theorem C95_order_partial {m m' : Machine} {flags : Flags} {cmd : Command} {pattern : BazelPattern}
    (hsame : SameMachine m m') {steps : Nat} (hm : steps ≤ m.steps) (hm' : steps ≤ m'.steps)
    (h : ∀ ws, workspaceOf m = some ws → Roots ws ∧ Orderly m ws (searched cmd pattern) steps) :
    runCommand m' flags cmd pattern = runCommand m flags cmd pattern := by
  have e1 : m'.fs = m.fs := by rw [hsame.rest]
  have e2 : m'.symlink = m.symlink := by rw [hsame.rest]
  have e3 : m'.glob = m.glob := by rw [hsame.rest]
  have hworld : ∀ ws, world m' ws = world m ws := fun ws => by simp only [world, e1, e3]
  refine run_congr (by rw [e1]) (fun ws => by rw [e1]) ?_ e3 (fun ws pkg => by rw [hworld])
    (fun ws pkg ast => by rw [hworld]) ?_
  · intro ws hws
    obtain ⟨hroots, ho⟩ := h ws hws
    have se := hsame.entries
    obtain ⟨found, hc, hf⟩ := orderly_found (steps := m.steps) ho.named (fun start hs => by
      obtain ⟨dirs, h1, h2⟩ := ho.finite start hs
      exact ⟨dirs, by omega, h2⟩) ho.apart
    obtain ⟨found', hc', hf'⟩ := orderly_found (t := m'.tree) (symlink := m.symlink) (ws := ws)
      (pattern := searched cmd pattern) (steps := m'.steps)
      (named_same se ho.named) (fun start hs => by
        obtain ⟨dirs, h1, h2⟩ := ho.finite start hs
        exact ⟨dirs, by omega, fun names d hb => h2 names d ((below_same se).1 hb)⟩) (by
        intro start hs
        unfold Apart
        simp only [below_same se, in_same se, isDir_same se]
        exact ho.apart start hs)
    have hmem : ∀ f, f ∈ found' ↔ f ∈ found := by
      intro f; rw [hf, hf']; simp only [buildFileOf_same se]
    rw [← e2] at hc'
    have hone : ∀ pkg, ∀ f ∈ found, ∀ g ∈ found,
        Collect.packageOf ws f (searched cmd pattern).pattern.package.project = some (some pkg) →
        Collect.packageOf ws g (searched cmd pattern).pattern.package.project = some (some pkg) → f = g := by
      intro pkg f hfm g hgm hpf hpg
      obtain ⟨n1, p1, b1, s1⟩ := (hf f).1 hfm
      obtain ⟨n2, p2, b2, s2⟩ := (hf g).1 hgm
      rw [Collect.buildFile_package ho.named hroots ho.tidy b1 (ho.visible _ _ _ b1 s1)] at hpf
      rw [Collect.buildFile_package ho.named hroots ho.tidy b2 (ho.visible _ _ _ b2 s2)] at hpg
      cases hpf
      cases hpg
      exact ho.single _ _ _ _ _ b1 b2
    refine fill_congr hroots hc hc' ?_ ?_
    · rw [List.eq_nil_iff_forall_not_mem, List.eq_nil_iff_forall_not_mem]
      simp only [hmem]
    · intro pkg file
      simp only [firstReadable_iff (hone pkg), firstReadable_iff (m := m') (found := found')
        (fun f hf g hg => hone pkg f ((hmem f).1 hf) g ((hmem g).1 hg)), hmem, e1]
      unfold CommandSpec.ReadAs
      rw [e3]
  · intro p _
    rw [hsame.rest]
    rfl

/-! ### Without these assumptions -/

/-- The directory of `twoFiles`, listed in the other order. -/
def otherOrder : Machine := { disk twoFiles with tree := (disk twoFiles.reverse).tree }

/-- If there are two BUILD files in a directory, the one that is listed first is used. -/
theorem C95_counterexample : ¬ C95_statement := by
  intro h
  have := h (disk twoFiles) otherOrder {} .listPackages everything ⟨?_, rfl⟩ rfl
  · revert this; decide +kernel
  · refine ⟨?_, ?_, fun _ => rfl⟩
    · intro d es he
      unfold otherOrder disk at *
      simp only at he ⊢
      split at he
      · next hd =>
        cases he
        rw [if_pos hd]
        exact ⟨_, rfl, by rw [show twoFiles.reverse.map (fun e => dirName e.1) = twoFiles.map (fun e => dirName e.1)
          from by decide +kernel]⟩
      · next hd =>
        cases he
        rw [if_neg hd]
        exact ⟨_, rfl, ((List.reverse_perm twoFiles).filter _).map _⟩
    · intro d he
      unfold disk at he
      simp only at he
      split at he <;> cases he

/-! ### Examples -/

/-- The entries of a directory. -/
def entriesB (t : Tree) (d : Str) : List Dirent :=
  ((t.list d).getD []).filter fun e => e.name ≠ c!"." ∧ e.name ≠ c!".."

theorem entriesB_of {t : Tree} {d : Str} {e : Dirent} {p : Str} (h : In t d e p) :
    e ∈ entriesB t d ∧ p = Workspace.join d e.name := by
  obtain ⟨⟨es, hl, he⟩, hn, rfl⟩ := in_iff.1 h
  refine ⟨?_, rfl⟩
  unfold entriesB
  rw [hl]
  simp only [Option.getD_some, List.mem_filter, decide_eq_true_eq]
  exact ⟨he, by simpa using hn⟩

/-- A check for the pattern `//...`; `dirs` are the directories, with the names on the way. -/
def orderlyB (table : List (Str × List Dirent)) (dirs : List (List Str × Str)) : Bool :=
  let t := listing table []
  table.all (fun x => decide (x.2.map (·.name)).Nodup && x.2.all fun e => decide (e.name ≠ [] ∧ '/' ∉ e.name)) &&
  decide (([], c!".") ∈ dirs) &&
  dirs.all (fun x => (entriesB t x.2).all fun e =>
    (directoryInode t (Workspace.join x.2 e.name) e).isNone ||
      decide ((x.1 ++ [e.name], Workspace.join x.2 e.name) ∈ dirs)) &&
  dirs.all (fun x => (entriesB t x.2).all fun e => dirs.all fun y => (entriesB t y.2).all fun e' =>
    (directoryInode t (Workspace.join x.2 e.name) e).isNone ||
      decide (directoryInode t (Workspace.join x.2 e.name) e ≠ directoryInode t (Workspace.join y.2 e'.name) e') ||
      decide (Workspace.join x.2 e.name = Workspace.join y.2 e'.name)) &&
  dirs.all (fun x => decide ((below [] x.1).head? ≠ some '.')) &&
  dirs.all fun x => (entriesB t x.2).all fun e => dirs.all fun y => (entriesB t y.2).all fun e' =>
    !Collect.isBuildFile e.name || !Collect.isBuildFile e'.name || decide (below [] x.1 ≠ below [] y.1) ||
      decide (Workspace.join x.2 e.name = Workspace.join y.2 e'.name)

theorem orderlyB_sound {m : Machine} {table : List (Str × List Dirent)} {dirs : List (List Str × Str)}
    (ht : m.tree = listing table []) {pattern : BazelPattern} (hp : pattern.pattern.package = ⟨[], []⟩)
    (h : orderlyB table dirs = true) : Orderly m [] pattern dirs.length := by
  unfold orderlyB at h
  simp only [Bool.and_eq_true, List.all_eq_true, decide_eq_true_eq, Bool.or_eq_true, Bool.not_eq_true',
    Option.isNone_iff_eq_none] at h
  obtain ⟨⟨⟨⟨⟨c0, c1⟩, c2⟩, c3⟩, c4⟩, c5⟩ := h
  have hst : ∀ start, Start [] pattern.pattern.package start → start = c!"." := by
    intro start hs
    rw [hp] at hs
    cases hs with
    | top => rfl
    | main h => exact absurd rfl h
    | external h => exact absurd rfl h
  have hb : ∀ names d, Below m.tree m.symlink c!"." names d → (names, d) ∈ dirs := by
    intro names d hb
    induction hb with
    | start => exact c1
    | sub _ hin hd _ ih =>
      obtain ⟨h1, rfl⟩ := entriesB_of hin
      rw [ht] at h1 hd
      rcases c2 _ ih _ h1 with h2 | h2
      · rw [isDir_iff] at hd; rw [hd] at h2; cases h2
      · exact h2
  have hfile : ∀ names pkg file, BuildFileOf m.tree m.symlink [] pattern names pkg file →
      ∃ d e, (names, d) ∈ dirs ∧ e ∈ entriesB (listing table []) d ∧ file = Workspace.join d e.name ∧
        Collect.isBuildFile e.name = true ∧ pkg = ⟨[], below [] names⟩ := by
    rintro names pkg file ⟨start, dir, e, hs, hbel, _, hin, _, hname, rfl⟩
    obtain rfl := hst start hs
    obtain ⟨h1, rfl⟩ := entriesB_of hin
    refine ⟨dir, e, hb _ _ hbel, ht ▸ h1, rfl, ?_, by rw [hp]⟩
    rcases hname with h | h <;> · rw [h]; decide
  refine ⟨?_, by rw [hp]; exact ⟨by decide, by decide⟩, ?_, ?_, ?_, ?_⟩
  · intro d es hl
    rw [ht] at hl
    have := c0 _ (lookup_mem hl)
    exact ⟨this.1, this.2⟩
  · intro start hs
    obtain rfl := hst start hs
    exact ⟨dirs.map (·.2), by simp, fun names d h => List.mem_map.2 ⟨_, hb _ _ h, rfl⟩⟩
  · intro start hs n₁ d₁ e₁ p₁ n₂ d₂ e₂ p₂ i b1 i1 k1 b2 i2 k2 _
    obtain rfl := hst start hs
    obtain ⟨h1, rfl⟩ := entriesB_of i1
    obtain ⟨h2, rfl⟩ := entriesB_of i2
    rw [ht] at h1 h2 k1 k2
    rw [isDir_iff] at k1 k2
    rcases c3 _ (hb _ _ b1) _ h1 _ (hb _ _ b2) _ h2 with (h3 | h3) | h3
    · simp only [] at h3; rw [k1] at h3; cases h3
    · simp only [] at h3; rw [k1, k2] at h3; exact absurd rfl h3
    · exact h3
  · intro names pkg file hbf _
    obtain ⟨d, e, h1, _, _, _, rfl⟩ := hfile _ _ _ hbf
    exact c4 _ h1
  · intro names pkg file names' file' h1 h2
    obtain ⟨d, e, a1, a2, rfl, a3, a4⟩ := hfile _ _ _ h1
    obtain ⟨d', e', b1, b2, rfl, b3, b4⟩ := hfile _ _ _ h2
    rcases c5 _ a1 _ a2 _ b1 _ b2 with ((h3 | h3) | h3) | h3
    · rw [a3] at h3; cases h3
    · rw [b3] at h3; cases h3
    · rw [a4] at b4; simp only [BazelPackage.mk.injEq, true_and] at b4; exact absurd b4 h3
    · exact h3

/-- The directories of `twoPackages`. -/
def twoDirs : List (Str × List Dirent) :=
  [(c!".", [⟨c!"p", 1, .dir⟩, ⟨c!"WORKSPACE", 5, .other⟩, ⟨c!"q", 2, .dir⟩]),
   (c!"./p", [⟨c!"BUILD", 3, .other⟩]), (c!"./q", [⟨c!"x.cc", 6, .other⟩, ⟨c!"BUILD", 4, .other⟩])]

/-- The same, listed in another order. -/
def twoDirs' : List (Str × List Dirent) := twoDirs.map fun x => (x.1, x.2.reverse)

theorem same_listing (table : List (Str × List Dirent)) :
    SameEntries (listing table []) (listing (table.map fun x => (x.1, x.2.reverse)) []) := by
  have key : ∀ d, lookup (table.map fun x => (x.1, x.2.reverse)) d = (lookup table d).map List.reverse := by
    intro d
    induction table with
    | nil => rfl
    | cons x table ih => rw [List.map_cons, lookup_cons, lookup_cons, ih]; split <;> rfl
  refine ⟨?_, ?_, fun _ => rfl⟩
  · intro d es h
    exact ⟨es.reverse, by
      change lookup _ d = _
      rw [key, show lookup table d = some es from h]; rfl, List.reverse_perm es⟩
  · intro d h
    change lookup _ d = _
    rw [key, show lookup table d = none from h]; rfl

def twoMachine : Machine := { disk twoPackages with tree := listing twoDirs [] }
def twoMachine' : Machine := { disk twoPackages with tree := listing twoDirs' [], base := fun p => 1000 * p.length }

/-- The files are found in another order, but what is printed is the same, for all commands. -/
example : (∀ flags cmd, runCommand twoMachine' flags cmd everything = runCommand twoMachine flags cmd everything) ∧
    Collect.collectBuildFiles twoMachine.tree twoMachine.symlink [] everything 9 = some [c!"./p/BUILD", c!"./q/BUILD"] ∧
    Collect.collectBuildFiles twoMachine'.tree twoMachine'.symlink [] everything 9 =
      some [c!"./q/BUILD", c!"./p/BUILD"] ∧
    (runCommand twoMachine { ({} : Flags) with format := .csv } .dependsOn everything).map (·.out) =
      some c!"\"library\",\"depends-on\"\n\"//p:a\",\"//q:b\"\n\"//p:a\",\"//p:c\"\n\"//q:b\",\"//p:c\"\n" := by
  refine ⟨fun flags cmd => ?_, by decide +kernel, by decide +kernel, by decide +kernel⟩
  have hw : workspaceOf twoMachine = some [] := by decide +kernel
  refine C95_order_partial ⟨same_listing twoDirs, rfl⟩ (steps := 3) (by decide) (by decide) fun ws h => ?_
  rw [hw] at h
  cases h
  have hr : Roots [] := by
    intro p r h; simp [Workspace.findPath, Workspace.findEntry, Workspace.lowerBound] at h
  refine ⟨hr, orderlyB_sound (dirs := [([], c!"."), ([c!"p"], c!"./p"), ([c!"q"], c!"./q")]) rfl ?_ (by decide +kernel)⟩
  unfold searched; split <;> rfl

end Props
end Bant
