import Verif.Lemmas.LayoutParse
import Verif.Lemmas.Invariance
import Verif.Spec.SameProject

/-! Lemmas about projects that differ in layout and comments: the commands. -/
namespace Bant
namespace Layout
open Parser LayoutSpec Commands CommandSpec Cli Query Headers GraphSpec

/-- What is made of a text. -/
def readOf (content : Str) : Option (Node × Bool) := (parseFile content).map fun r => (r.1, r.2.errs.isEmpty)

theorem SameTokens.isEmpty {ts ts' : List Token} (h : SameTokens ts ts') : ts'.isEmpty = ts.isEmpty := by
  cases h <;> rfl

theorem readOf_same {c c' : Str} (h : c' = c ∨ SameButLayout NotThenIn c c') : readOf c' = readOf c := by
  rcases h with rfl | ⟨ts, h1, h2, h3⟩
  · rfl
  · obtain ⟨ts', h4, h5⟩ := relaid_tokens h3 h1 h2
    obtain ⟨tree, st, st', e1, e2, e3⟩ := parse_same h1 h4 h5
    simp only [readOf, e1, e2, Option.map_some, SameTokens.isEmpty e3]

theorem readOf_inv {c c' : Str} (h : readOf c' = readOf c) :
    (parseFile c = none ∧ parseFile c' = none) ∨
      ∃ tree st st', parseFile c = some (tree, st) ∧ parseFile c' = some (tree, st') ∧
        st'.errs.isEmpty = st.errs.isEmpty := by
  unfold readOf at h
  cases h1 : parseFile c with
  | none =>
    cases h2 : parseFile c' with
    | none => exact Or.inl ⟨rfl, rfl⟩
    | some x => rw [h1, h2] at h; cases h
  | some x =>
    cases h2 : parseFile c' with
    | none => rw [h1, h2] at h; cases h
    | some y =>
      rw [h1, h2] at h
      simp only [Option.map_some, Option.some.injEq, Prod.mk.injEq] at h
      exact Or.inr ⟨x.1, x.2, y.2, rfl, by rw [← h.1], h.2⟩

/-- Alike in both: not there, or read with the same result. -/
def Alike (o o' : Option Str) : Prop :=
  (o = none ∧ o' = none) ∨ ∃ c c', o = some c ∧ o' = some c' ∧ readOf c' = readOf c

theorem sameProject_trees {m m' : Machine} (h : SameProject m m') : SameTrees m m' := by
  refine ⟨h.rest, h.missing, fun name c c' h1 h2 h3 => ?_, h.settings⟩
  rcases h.builds name c c' h1 h2 h3 with e | ⟨ts, h4, h5, h6⟩
  · exact Or.inl e
  · obtain ⟨ts', h7, h8⟩ := relaid_tokens h6 h4 h5
    obtain ⟨tree, st, st', e1, e2, e3⟩ := parse_same h4 h7 h8
    refine Or.inr ⟨tree, st, st', e1, e2, ?_⟩
    rw [← List.isEmpty_iff, ← List.isEmpty_iff, SameTokens.isEmpty e3]

theorem alike_of {m m' : Machine} (h : SameTrees m m') {name : Str} (hn : IsParsed name) :
    Alike (m.fs.content name) (m'.fs.content name) := by
  cases h1 : m.fs.content name with
  | none => exact Or.inl ⟨rfl, (h.missing name).2 h1⟩
  | some c =>
    cases h2 : m'.fs.content name with
    | none => rw [(h.missing name).1 h2] at h1; cases h1
    | some c' =>
      refine Or.inr ⟨c, c', rfl, rfl, ?_⟩
      rcases h.builds name c c' h1 h2 hn with rfl | ⟨tree, st, st', e1, e2, e3⟩
      · rfl
      · simp only [readOf, e1, e2, Option.map_some]
        congr 2
        rw [Bool.eq_iff_iff, List.isEmpty_iff, List.isEmpty_iff, e3]

/-! ### The workspace -/

theorem load_same {m m' : Machine} (h : SameTrees m m') : Workspace.load m'.fs = Workspace.load m.fs := by
  have hfs : m'.fs = { m.fs with content := m'.fs.content } := by
    have := congrArg Machine.fs h.rest
    exact this
  have hadd : Workspace.addProject m'.fs = Workspace.addProject m.fs := by
    rw [hfs]; rfl
  have hstep : ∀ name ∈ Workspace.wsFiles, ∀ r, Workspace.loadFile m'.fs r name = Workspace.loadFile m.fs r name := by
    intro name hn r
    unfold Workspace.loadFile
    rcases alike_of h (name := name) (Or.inr hn) with ⟨h1, h2⟩ | ⟨c, c', h1, h2, h3⟩
    · rw [h1, h2]
    · rw [h1, h2]
      rcases readOf_inv h3 with ⟨e1, e2⟩ | ⟨tree, st, st', e1, e2, _⟩
      · simp only [e1, e2]
      · simp only [e1, e2, hadd]
  have hfold : ∀ (l : List Str) (r : Bool × Workspace.Map), (∀ n ∈ l, n ∈ Workspace.wsFiles) →
      l.foldlM (Workspace.loadFile m'.fs) r = l.foldlM (Workspace.loadFile m.fs) r := by
    intro l
    induction l with
    | nil => intro r _; rfl
    | cons n l ih =>
      intro r hl
      rw [List.foldlM_cons, List.foldlM_cons, hstep n (hl n (by simp))]
      congr 1
      funext r'
      exact ih r' fun x hx => hl x (by simp [hx])
  unfold Workspace.load
  rw [hfold _ _ fun n hn => hn]

/-! ### The files -/

/-- The same files, but for texts and addresses. -/
def SameFiles (p p' : Project.State) : Prop :=
  p'.files.map (fun f => (f.1, f.2.source.name, f.2.ast, f.2.errors.isEmpty)) =
    p.files.map (fun f => (f.1, f.2.source.name, f.2.ast, f.2.errors.isEmpty))

theorem inOrder_same {p p' : Project.State} (h : SameFiles p p') : inOrder p' = inOrder p := by
  have key : ∀ (l : List (BazelPackage × Project.BuildFile)) (a : Loaded),
      l.foldl (fun l f => place (·.1) (f.1, (⟨f.2.source.name, f.2.ast, !f.2.errors.isEmpty⟩ : File)) l) a =
      (l.map (fun f => (f.1, f.2.source.name, f.2.ast, f.2.errors.isEmpty))).foldl
        (fun l f => place (·.1) (f.1, (⟨f.2.1, f.2.2.1, !f.2.2.2⟩ : File)) l) a := by
    intro l a
    rw [List.foldl_map]
  unfold inOrder
  rw [key, key, h]

theorem find_same {p p' : Project.State} (h : SameFiles p p') (pkg : BazelPackage) :
    (p'.find pkg).isSome = (p.find pkg).isSome := by
  have key : ∀ (l : List (BazelPackage × Project.BuildFile)),
      ((l.find? fun f => f.1 = pkg).map (·.2)).isSome =
        (l.map (fun f => (f.1, f.2.source.name, f.2.ast, f.2.errors.isEmpty))).any fun f => f.1 = pkg := by
    intro l
    rw [Option.isSome_map, List.any_map]
    induction l with
    | nil => rfl
    | cons a l ih =>
      rw [List.find?_cons, List.any_cons]
      by_cases e : a.1 = pkg
      · simp [e]
      · simpa [e] using ih
  unfold Project.State.find
  rw [key, key, h]

theorem addFile_same {p p' : Project.State} (h : SameFiles p p') (pkg : BazelPackage) (name : Str)
    {o o' : Option Str} (ho : Alike o o') (b b' : Nat) :
    (p.addFile pkg name o b = none ∧ p'.addFile pkg name o' b' = none) ∨
      ∃ f f' q q', p.addFile pkg name o b = some (f, q) ∧ p'.addFile pkg name o' b' = some (f', q') ∧ SameFiles q q' := by
  rcases ho with ⟨rfl, rfl⟩ | ⟨c, c', rfl, rfl, hr⟩
  · exact Or.inr ⟨_, _, _, _, rfl, rfl, h⟩
  · unfold Project.State.addFile Project.State.addContent
    have hf := find_same h pkg
    cases h1 : p.find pkg with
    | some e =>
      cases h2 : p'.find pkg with
      | none => rw [h1, h2] at hf; cases hf
      | some e' => exact Or.inr ⟨_, _, _, _, rfl, rfl, h⟩
    | none =>
      cases h2 : p'.find pkg with
      | some e' => rw [h1, h2] at hf; cases hf
      | none =>
        rcases readOf_inv hr with ⟨e1, e2⟩ | ⟨tree, st, st', e1, e2, e3⟩
        · simp only [e1, e2]
          exact Or.inl ⟨trivial, trivial⟩
        · simp only [e1, e2]
          refine Or.inr ⟨_, _, _, _, rfl, rfl, ?_⟩
          unfold SameFiles
          simp only [Project.State.register, List.map_append, List.map_cons, List.map_nil, e3]
          rw [h]

theorem fill_alike {m m' : Machine} (ht : m'.tree = m.tree) (hy : m'.symlink = m.symlink) (hs : m'.steps = m.steps)
    (ws : Workspace.Map) (cmd : Command) (pattern : BazelPattern)
    (hb : ∀ found, Collect.collectBuildFiles m.tree m.symlink ws (searched cmd pattern) m.steps = some found →
      ∀ f ∈ found, Alike (m.fs.content f) (m'.fs.content f)) :
    fill m' ws cmd pattern = fill m ws cmd pattern := by
  unfold fill
  split
  · unfold Collect.fillFromPattern
    rw [ht, hy, hs]
    cases hc : Collect.collectBuildFiles m.tree m.symlink ws (depPattern cmd pattern) m.steps with
    | none => rfl
    | some found =>
      have hb := hb found hc
      have key : ∀ (l : List Str) (p p' : Project.State), (∀ f ∈ l, Alike (m.fs.content f) (m'.fs.content f)) → SameFiles p p' →
          (l.foldlM (Collect.addFound ws (depPattern cmd pattern).pattern.package.project m.fs.content m.base) p = none ∧
            l.foldlM (Collect.addFound ws (depPattern cmd pattern).pattern.package.project m'.fs.content m'.base) p'
              = none) ∨
          ∃ q q', l.foldlM (Collect.addFound ws (depPattern cmd pattern).pattern.package.project m.fs.content m.base) p
              = some q ∧
            l.foldlM (Collect.addFound ws (depPattern cmd pattern).pattern.package.project m'.fs.content m'.base) p'
              = some q' ∧ SameFiles q q' := by
        intro l
        induction l with
        | nil => intro p p' _ hp; exact Or.inr ⟨p, p', rfl, rfl, hp⟩
        | cons f l ih =>
          intro p p' hl hp
          simp only [List.foldlM_cons]
          have hstep : (Collect.addFound ws (depPattern cmd pattern).pattern.package.project m.fs.content m.base p f = none ∧
              Collect.addFound ws (depPattern cmd pattern).pattern.package.project m'.fs.content m'.base p' f = none) ∨
              ∃ q q', Collect.addFound ws (depPattern cmd pattern).pattern.package.project m.fs.content m.base p f = some q ∧
                Collect.addFound ws (depPattern cmd pattern).pattern.package.project m'.fs.content m'.base p' f = some q' ∧
                SameFiles q q' := by
            unfold Collect.addFound
            cases Collect.packageOf ws f (depPattern cmd pattern).pattern.package.project with
            | none => exact Or.inl ⟨rfl, rfl⟩
            | some o =>
              cases o with
              | none => exact Or.inr ⟨p, p', rfl, rfl, hp⟩
              | some pkg =>
                rcases addFile_same hp pkg f (hl f (by simp)) (m.base f) (m'.base f) with
                  ⟨e1, e2⟩ | ⟨g, g', q, q', e1, e2, e3⟩
                · exact Or.inl ⟨by simp only [e1, Option.map_none], by simp only [e2, Option.map_none]⟩
                · exact Or.inr ⟨q, q', by simp only [e1, Option.map_some], by simp only [e2, Option.map_some], e3⟩
          rcases hstep with ⟨e1, e2⟩ | ⟨q, q', e1, e2, e3⟩
          · exact Or.inl ⟨by rw [e1]; rfl, by rw [e2]; rfl⟩
          · rw [e1, e2]
            exact ih q q' (fun x hx => hl x (by simp [hx])) e3
      rcases key found {} {} hb rfl with ⟨e1, e2⟩ | ⟨q, q', e1, e2, e3⟩
      · simp only [e1, e2, Option.map_none]
      · simp only [e1, e2, Option.map_some, inOrder_same e3]
  · rfl

theorem fill_same {m m' : Machine} (h : SameTrees m m') (ws : Workspace.Map) (cmd : Command)
    (pattern : BazelPattern) : fill m' ws cmd pattern = fill m ws cmd pattern :=
  fill_alike (by rw [h.rest]) (by rw [h.rest]) (by rw [h.rest]) ws cmd pattern fun _ hc f hf =>
    alike_of h (Or.inl (found_build hc f hf))

/-! ### Further files -/

theorem path_build {w : DepGraph.World} {pkg : BazelPackage} {path : Str}
    (h : DepGraph.pathForPackage w pkg = some path) : GraphSpec.IsBuild path := by
  have key : ∀ start : Str, ([c!"BUILD", c!"BUILD.bazel"].map (Workspace.join start)).find? w.fs.canRead = some path →
      GraphSpec.IsBuild path := by
    intro start h
    have := List.mem_of_find?_eq_some h
    simp only [List.map_cons, List.map_nil, List.mem_cons, List.not_mem_nil, or_false] at this
    rcases this with rfl | rfl
    · exact ⟨c!"BUILD", by simp, .inr ⟨_, rfl⟩⟩
    · exact ⟨c!"BUILD.bazel", by simp, .inr ⟨_, rfl⟩⟩
  unfold DepGraph.pathForPackage at h
  simp only at h
  split at h
  · exact key _ h
  · split at h
    · cases h
    · exact key _ h

theorem path_same {m m' : Machine} (h : SameTrees m m') (ws : Workspace.Map) (pkg : BazelPackage) :
    DepGraph.pathForPackage (world m' ws) pkg = DepGraph.pathForPackage (world m ws) pkg := by
  have hfs : m'.fs = { m.fs with content := m'.fs.content } := congrArg Machine.fs h.rest
  simp only [DepGraph.pathForPackage, world]
  rw [hfs]

theorem graphLoad_same {m m' : Machine} (h : SameTrees m m') (ws : Workspace.Map) (pkg : BazelPackage) :
    DepGraph.load (world m' ws) pkg = DepGraph.load (world m ws) pkg := by
  have hg : m'.glob = m.glob := by rw [h.rest]
  unfold DepGraph.load
  rw [path_same h]
  cases hp : DepGraph.pathForPackage (world m ws) pkg with
  | none => rfl
  | some path =>
    simp only [world]
    rcases alike_of h (name := path) (Or.inl (path_build hp)) with ⟨h1, h2⟩ | ⟨c, c', h1, h2, h3⟩
    · rw [h1, h2]
    · rw [h1, h2]
      rcases readOf_inv h3 with ⟨e1, e2⟩ | ⟨tree, st, st', e1, e2, _⟩
      · simp only [e1, e2]
      · simp only [e1, e2, hg]

theorem added_same {m m' : Machine} (h : SameTrees m m') (ws : Workspace.Map) (pkg : BazelPackage) (ast : Node) :
    added (world m' ws) pkg ast = added (world m ws) pkg ast := by
  unfold added
  rw [path_same h]
  cases hpp : DepGraph.pathForPackage (world m ws) pkg with
  | none => rfl
  | some path =>
    simp only [world]
    rcases alike_of h (name := path) (Or.inl (path_build hpp)) with ⟨h1, h2⟩ | ⟨c, c', h1, h2, h3⟩
    · rw [h1, h2]
    · rw [h1, h2]
      rcases readOf_inv h3 with ⟨e1, e2⟩ | ⟨tree, st, st', e1, e2, e3⟩
      · simp only [e1, e2]
      · simp only [e1, e2, e3]

/-! ### dwyu -/

theorem tryOpen_same {read read' : Str → Option Str} (hmiss : ∀ n, read' n = none ↔ read n = none)
    (hinc : ∀ n c c', read n = some c → read' n = some c' →
      (Includes.extract c').map (·.2) = (Includes.extract c).map (·.2)) (file : Str) :
    (Dwyu.tryOpenFile read' file).map (fun c => (Includes.extract c).map (·.2)) =
      (Dwyu.tryOpenFile read file).map (fun c => (Includes.extract c).map (·.2)) := by
  unfold Dwyu.tryOpenFile
  generalize Dwyu.sourceLocations = l
  induction l with
  | nil => rfl
  | cons p l ih =>
    simp only [List.findSome?_cons]
    cases h1 : read (p ++ file) with
    | none => rw [(hmiss _).2 h1]; exact ih
    | some c =>
      cases h2 : read' (p ++ file) with
      | none => rw [(hmiss _).1 h2] at h1; cases h1
      | some c' => simp only [Option.map_some, hinc _ _ _ h1 h2]

theorem mapAll_congr {α β : Type} {f g : α → Option (List β)} (h : ∀ x, f x = g x) (l : List α) :
    mapAll f l = mapAll g l := by
  have : f = g := funext h
  rw [this]

theorem dwyu_same {env env' : Dwyu.Env} (hmiss : ∀ n, env'.read n = none ↔ env.read n = none)
    (hinc : ∀ n c c', env.read n = some c → env'.read n = some c' →
      (Includes.extract c').map (·.2) = (Includes.extract c).map (·.2))
    (hkeep : ∀ r t n, Dwyu.hasKeepComment (env'.line r t n) = Dwyu.hasKeepComment (env.line r t n))
    (hws : env'.workspace = env.workspace) (hig : env'.ignoreKeep = env.ignoreKeep) (pattern : BazelPattern)
    (files : Files) :
    Dwyu.createDependencyEdits env' pattern files = Dwyu.createDependencyEdits env pattern files := by
  have h1 : ∀ gen target package sources l, Dwyu.neededBySources env' gen target package sources l =
      Dwyu.neededBySources env gen target package sources l := by
    intro gen target package sources l
    induction l with
    | nil => rfl
    | cons src rest ih =>
      rw [Dwyu.neededBySources, Dwyu.neededBySources, ih, hws]
      have ht := tryOpen_same hmiss hinc (package.fullyQualifiedFile env.workspace src)
      cases hr : Dwyu.neededBySources env gen target package sources rest with
      | none => rfl
      | some r =>
        cases h1 : Dwyu.tryOpenFile env.read (package.fullyQualifiedFile env.workspace src) with
        | none =>
          cases h2 : Dwyu.tryOpenFile env'.read (package.fullyQualifiedFile env.workspace src) with
          | none => rfl
          | some c' => rw [h1, h2] at ht; cases ht
        | some c =>
          cases h2 : Dwyu.tryOpenFile env'.read (package.fullyQualifiedFile env.workspace src) with
          | none => rw [h1, h2] at ht; cases ht
          | some c' =>
            rw [h1, h2] at ht
            simp only [Option.map_some, Option.some.injEq] at ht
            simp only [ht]
  have h2 : ∀ gen target details accounted l n needed off,
      Dwyu.lookAtDeps env' gen target details accounted n needed off l =
      Dwyu.lookAtDeps env gen target details accounted n needed off l := by
    intro gen target details accounted l
    induction l with
    | nil => intro n needed off; rfl
    | cons d rest ih =>
      intro n needed off
      rw [Dwyu.lookAtDeps, Dwyu.lookAtDeps]
      simp only [ih, hkeep, hig]
  have h3 : ∀ gen target details package, Dwyu.createEditsForTarget env' gen target details package =
      Dwyu.createEditsForTarget env gen target details package := by
    intro gen target details package
    simp only [Dwyu.createEditsForTarget, h1, h2]
  simp only [Dwyu.createDependencyEdits, Dwyu.createEditsForPattern, h3]

/-! ### Commands -/

theorem run_trees {m m' : Machine} {flags : Flags} {cmd : Command} {pattern : BazelPattern}
    (h : SameTrees m m') (hdwyu : cmd = .dwyu → SameSources m m') (hplaces : SamePlaces m m' cmd) :
    runCommand m' flags cmd pattern = runCommand m flags cmd pattern := by
  have hfs : m'.fs = { m.fs with content := m'.fs.content } := congrArg Machine.fs h.rest
  have hcwd : m'.cwd = m.cwd := by rw [h.rest]
  have hregex : m'.regex = m.regex := by rw [h.rest]
  have hcolor : m'.color = m.color := by rw [h.rest]
  refine run_congr (load_same h) (fun ws => ?_) (fun ws _ => fill_same h ws cmd pattern) (by rw [h.rest])
    (graphLoad_same h) (added_same h) ?_
  · rw [hfs]; rfl
  · intro p _
    cases cmd with
    | dwyu =>
      obtain ⟨h1, h2⟩ := hdwyu rfl
      simp only [perform]
      rw [dwyu_same (env := ⟨m.fs.content, p.workspace, m.line, flags.ignoreKeep⟩)
        (env' := ⟨m'.fs.content, p.workspace, m'.line, flags.ignoreKeep⟩) h.missing h1 h2 rfl rfl]
    | print => simp only [perform, printed, hregex, hcolor, hplaces.call (Or.inl rfl)]
    | parse => simp only [perform, printed, hregex, hcolor, hplaces.call (Or.inr rfl)]
    | listTargets => simp only [perform, hplaces.name rfl]
    | compilationDB => simp only [perform, hcwd, h.settings]
    | compileFlags => simp only [perform, h.settings]
    | libraryHeaders => rfl
    | genruleOutputs => rfl
    | canonicalizeDeps => rfl
    | listPackages => rfl
    | listWorkspace => rfl
    | aliasedBy => rfl
    | dependsOn => rfl
    | hasDependents => rfl

end Layout
end Bant
