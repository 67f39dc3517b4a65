import Verif.Lemmas.SameRules

/-! Lemmas about projects with the same rules: the commands (C101). -/
namespace Bant
namespace RulesSpec
open Query Rules Headers Commands CommandSpec Cli Parser

/-- What is found in a tree. -/
abbrev View := Bool → List Str → Option (List (Query.Result × (BazelTarget → Nat → Bool)))

/-- What is found in the tree of a file, once it is evaluated, and as it is. -/
def sorted (u : Bool) (glob : BazelPackage → Elab.GlobFn) (keep : Query.Result → BazelTarget → Nat → Bool) (evaluated : Bool)
    (pkg : BazelPackage) (t : Node) : Option View × Option View :=
  ((Elab.elabFile (glob pkg) t).map (view u keep), if evaluated then none else some (view u keep t))

theorem evaluated_proper {glob : Elab.GlobFn} {c : Str} {t u : Node} {st : PState} (h : parseFile c = some (t, st))
    (he : Elab.elabFile glob t = some u) : ∀ s ∈ sites u, Proper s := by
  obtain ⟨stmts, rfl, hc⟩ := ParserCalls.parseFile_calls h
  obtain ⟨xs, rfl, hx⟩ := ParserCalls.elabFile_calls hc he
  exact ParserCalls.callsOkAll_sites xs hx

theorem parsed_proper {c : Str} {t : Node} {st : PState} (h : parseFile c = some (t, st)) : ∀ s ∈ sites t, Proper s := by
  obtain ⟨stmts, rfl, hc⟩ := ParserCalls.parseFile_calls h
  exact ParserCalls.callsOkAll_sites stmts hc

section
variable {flags : Flags} {cmd : Command} {m m' : Machine}

/-- Read alike in both: not there, or the same is found in there. -/
def ReadAlike (flags : Flags) (cmd : Command) (m m' : Machine) (pkg : BazelPackage) (o o' : Option Str) : Prop :=
  (o = none ∧ o' = none) ∨ ∃ c c' t st t' st', o = some c ∧ o' = some c' ∧ parseFile c = some (t, st) ∧
    parseFile c' = some (t', st') ∧
    sorted (asksUnnamed cmd) m.glob (keepOf flags cmd m') (elaborates flags cmd) pkg t' =
      sorted (asksUnnamed cmd) m.glob (keepOf flags cmd m) (elaborates flags cmd) pkg t ∧
    (Elab.elabFile (m.glob pkg) t').map (view (asksUnnamed cmd) (keepOf flags cmd m')) =
      (Elab.elabFile (m.glob pkg) t).map (view (asksUnnamed cmd) (keepOf flags cmd m))

theorem readAlike_of (h : SameMeaning flags cmd m m') {name : Str} (hn : GraphSpec.IsBuild name)
    {pkg : BazelPackage} (hpk : ReadFor m pkg name) : ReadAlike flags cmd m m' pkg (m.fs.content name) (m'.fs.content name) := by
  cases h1 : m.fs.content name with
  | none => exact .inl ⟨rfl, (h.missing name).2 h1⟩
  | some c =>
    cases h2 : m'.fs.content name with
    | none => rw [(h.missing name).1 h2] at h1; cases h1
    | some c' =>
      obtain ⟨t, st, h3, _⟩ := parseFile_total c
      obtain ⟨t', st', h4, _⟩ := parseFile_total c'
      obtain ⟨h5, h6⟩ := h.builds name c c' h1 h2 hn t st t' st' h3 h4
      have key : (Elab.elabFile (m.glob pkg) t').map (view (asksUnnamed cmd) (keepOf flags cmd m')) =
          (Elab.elabFile (m.glob pkg) t).map (view (asksUnnamed cmd) (keepOf flags cmd m)) := by
        rcases h6 pkg hpk with ⟨e1, e2⟩ | ⟨u, u', e1, e2, e3⟩
        · rw [e1, e2]; rfl
        · rw [e1, e2, Option.map_some, Option.map_some,
            view_same (evaluated_proper h3 e1) (evaluated_proper h4 e2) e3]
      refine .inr ⟨c, c', t, st, t', st', rfl, rfl, h3, h4, ?_, key⟩
      unfold sorted
      rw [key]
      cases he : elaborates flags cmd with
      | true => rfl
      | false => simp only [Bool.false_eq_true, if_false, view_same (parsed_proper h3) (parsed_proper h4) (h5 he)]

/-! ### The workspace -/

theorem load_same (h : SameMeaning flags cmd m m') : Workspace.load m'.fs = Workspace.load m.fs := by
  have hfs : m'.fs = { m.fs with content := m'.fs.content } := congrArg Machine.fs h.rest
  have hstep : ∀ name ∈ Workspace.wsFiles, ∀ r, Workspace.loadFile m'.fs r name = Workspace.loadFile m.fs r name := by
    intro name hn r
    unfold Workspace.loadFile
    cases h1 : m.fs.content name with
    | none => rw [(h.missing name).2 h1]
    | some c =>
      cases h2 : m'.fs.content name with
      | none => rw [(h.missing name).1 h2] at h1; cases h1
      | some c' =>
        obtain ⟨t, st, h3, _⟩ := parseFile_total c
        obtain ⟨t', st', h4, _⟩ := parseFile_total c'
        have hs := h.workspace name c c' h1 h2 hn t st t' st' h3 h4
        have hv := view_same (parsed_proper h3) (parsed_proper h4) hs
        have n1 : t.isNull = false := by
          obtain ⟨xs, rfl, _⟩ := ParserCalls.parseFile_calls h3; rfl
        have n2 : t'.isNull = false := by
          obtain ⟨xs, rfl, _⟩ := ParserCalls.parseFile_calls h4; rfl
        simp only [h3, h4, n1, n2]
        rcases found_same hv false [c!"http_archive", c!"bazel_dep"] with ⟨e1, e2⟩ | ⟨rs, rs', e1, e2, e3⟩
        · rw [e1, e2]
        · rw [e1, e2]
          simp only [Option.some.injEq, Prod.mk.injEq, true_and]
          refine foldl_pair (g := fun r => (told r, fun _ _ => false)) (g' := fun r => (told r, fun _ _ => false)) ?_ _ e3
          intro s r r' e
          simp only [Prod.mk.injEq, and_true] at e
          have hr := same_of e
          have hd : Workspace.projectDir m'.fs r' = Workspace.projectDir m.fs r := by
            simp only [Workspace.projectDir, Workspace.searchDirs, hr.name, hr.version]
            rw [hfs]
          simp only [Workspace.addProject, hd, hr.name, hr.repoName, hr.version]
  have hfold : ∀ (l : List Str) (r : Bool × Workspace.Map), (∀ n ∈ l, n ∈ Workspace.wsFiles) →
      l.foldlM (Workspace.loadFile m'.fs) r = l.foldlM (Workspace.loadFile m.fs) r := by
    intro l
    induction l with
    | nil => intro r _; rfl
    | cons n l ih =>
      intro r hl
      rw [List.foldlM_cons, List.foldlM_cons, hstep n (hl n (by simp))]
      congr 1
      funext r'
      exact ih r' fun x hx => hl x (by simp [hx])
  unfold Workspace.load
  rw [hfold _ _ fun n hn => hn]

/-! ### The files -/

variable {γ : Type}

/-- The same files, by `f` and `f'` for trees. -/
def SameFiles (f f' : BazelPackage → Node → γ) (p p' : Project.State) : Prop :=
  p'.files.map (fun x => (x.1, x.2.source.name, f' x.1 x.2.ast)) = p.files.map fun x => (x.1, x.2.source.name, f x.1 x.2.ast)

/-- The same for what has been loaded. -/
def SameLoaded (f f' : BazelPackage → Node → γ) (l l' : Loaded) : Prop :=
  l'.map (fun x => (x.1, x.2.name, f' x.1 x.2.ast)) = l.map fun x => (x.1, x.2.name, f x.1 x.2.ast)

theorem place_map {α β δ : Type} [Ordered α] (g : α × β → α × δ) (hg : ∀ x, (g x).1 = x.1) (x : α × β) (l : List (α × β)) :
    (place (·.1) x l).map g = place (·.1) (g x) (l.map g) := by
  induction l with
  | nil => rfl
  | cons y l ih =>
    simp only [place, List.map_cons, hg]
    split
    · rfl
    · rw [List.map_cons, ih]

theorem inOrder_same {f f' : BazelPackage → Node → γ} {p p' : Project.State} (h : SameFiles f f' p p') :
    SameLoaded f f' (inOrder p) (inOrder p') := by
  have key : ∀ (f : BazelPackage → Node → γ) (l : List (BazelPackage × Project.BuildFile)) (a : Loaded),
      (l.foldl (fun l x => place (·.1) (x.1, (⟨x.2.source.name, x.2.ast, !x.2.errors.isEmpty⟩ : File)) l) a).map
        (fun x => (x.1, x.2.name, f x.1 x.2.ast)) =
      (l.map (fun x => (x.1, x.2.source.name, f x.1 x.2.ast))).foldl (fun l x => place (·.1) x l)
        (a.map fun x => (x.1, x.2.name, f x.1 x.2.ast)) := by
    intro f l
    induction l with
    | nil => intro a; rfl
    | cons x l ih =>
      intro a
      rw [List.foldl_cons, ih, List.map_cons, List.foldl_cons,
        place_map (fun x : BazelPackage × File => (x.1, x.2.name, f x.1 x.2.ast)) (fun _ => rfl)]
  unfold SameLoaded inOrder
  rw [key f', key f, h]
  rfl

theorem find_same {f f' : BazelPackage → Node → γ} {p p' : Project.State} (h : SameFiles f f' p p') (pkg : BazelPackage) :
    (p'.find pkg).isSome = (p.find pkg).isSome := by
  have key : ∀ (f : BazelPackage → Node → γ) (l : List (BazelPackage × Project.BuildFile)),
      ((l.find? fun x => x.1 = pkg).map (·.2)).isSome =
        (l.map (fun x => (x.1, x.2.source.name, f x.1 x.2.ast))).any fun x => x.1 = pkg := by
    intro f l
    rw [Option.isSome_map, List.any_map]
    induction l with
    | nil => rfl
    | cons a l ih =>
      rw [List.find?_cons, List.any_cons]
      by_cases e : a.1 = pkg
      · simp [e]
      · simpa [e] using ih
  unfold Project.State.find
  rw [key f', key f, h]

theorem addFile_same {f f' : BazelPackage → Node → γ} {p p' : Project.State} (h : SameFiles f f' p p') (pkg : BazelPackage) (name : Str)
    {o o' : Option Str} (ho : (o = none ∧ o' = none) ∨ ∃ c c' t st t' st', o = some c ∧ o' = some c' ∧
      parseFile c = some (t, st) ∧ parseFile c' = some (t', st') ∧ f' pkg t' = f pkg t) (b b' : Nat) :
    ∃ x x' q q', p.addFile pkg name o b = some (x, q) ∧ p'.addFile pkg name o' b' = some (x', q') ∧
      SameFiles f f' q q' := by
  rcases ho with ⟨rfl, rfl⟩ | ⟨c, c', t, st, t', st', rfl, rfl, h1, h2, h3⟩
  · exact ⟨_, _, _, _, rfl, rfl, h⟩
  · unfold Project.State.addFile Project.State.addContent
    have hf := find_same h pkg
    cases e1 : p.find pkg with
    | some e =>
      cases e2 : p'.find pkg with
      | none => rw [e1, e2] at hf; cases hf
      | some e' => exact ⟨_, _, _, _, rfl, rfl, h⟩
    | none =>
      cases e2 : p'.find pkg with
      | some e' => rw [e1, e2] at hf; cases hf
      | none =>
        simp only [h1, h2]
        refine ⟨_, _, _, _, rfl, rfl, ?_⟩
        unfold SameFiles
        simp only [Project.State.register, List.map_append, List.map_cons, List.map_nil, h3]
        rw [h]

theorem packageOf_project {ws : Workspace.Map} {file project : Str} {pkg : BazelPackage}
    (h : Collect.packageOf ws file project = some (some pkg)) : pkg.project = project := by
  unfold Collect.packageOf at h
  split at h
  · cases h; rfl
  · split at h
    · cases h
    · split at h
      · cases h; rfl
      · cases h

theorem fill_same (h : SameMeaning flags cmd m m') {ws : Workspace.Map} (hws : workspaceOf m = some ws) (pattern : BazelPattern) :
    (fill m ws cmd pattern = none ∧ fill m' ws cmd pattern = none) ∨
      ∃ l l' msg, fill m ws cmd pattern = some (l, msg) ∧ fill m' ws cmd pattern = some (l', msg) ∧
        SameLoaded (sorted (asksUnnamed cmd) m.glob (keepOf flags cmd m) (elaborates flags cmd))
          (sorted (asksUnnamed cmd) m.glob (keepOf flags cmd m') (elaborates flags cmd)) l l' := by
  have ht : m'.tree = m.tree := by rw [h.rest]
  have hy : m'.symlink = m.symlink := by rw [h.rest]
  have hs : m'.steps = m.steps := by rw [h.rest]
  unfold fill
  split
  · unfold Collect.fillFromPattern
    rw [ht, hy, hs]
    cases hc : Collect.collectBuildFiles m.tree m.symlink ws (depPattern cmd pattern) m.steps with
    | none => exact .inl ⟨rfl, rfl⟩
    | some found =>
      have hb := found_build hc
      have key : ∀ (l : List Str) (p p' : Project.State), (∀ x ∈ l, GraphSpec.IsBuild x) →
          SameFiles (sorted (asksUnnamed cmd) m.glob (keepOf flags cmd m) (elaborates flags cmd))
            (sorted (asksUnnamed cmd) m.glob (keepOf flags cmd m') (elaborates flags cmd)) p p' →
          (l.foldlM (Collect.addFound ws (depPattern cmd pattern).pattern.package.project m.fs.content m.base) p = none ∧
            l.foldlM (Collect.addFound ws (depPattern cmd pattern).pattern.package.project m'.fs.content m'.base) p'
              = none) ∨
          ∃ q q', l.foldlM (Collect.addFound ws (depPattern cmd pattern).pattern.package.project m.fs.content m.base) p
              = some q ∧
            l.foldlM (Collect.addFound ws (depPattern cmd pattern).pattern.package.project m'.fs.content m'.base) p'
              = some q' ∧ SameFiles (sorted (asksUnnamed cmd) m.glob (keepOf flags cmd m) (elaborates flags cmd))
            (sorted (asksUnnamed cmd) m.glob (keepOf flags cmd m') (elaborates flags cmd)) q q' := by
        intro l
        induction l with
        | nil => intro p p' _ hp; exact .inr ⟨p, p', rfl, rfl, hp⟩
        | cons x l ih =>
          intro p p' hl hp
          simp only [List.foldlM_cons]
          cases hpk : Collect.packageOf ws x (depPattern cmd pattern).pattern.package.project with
          | none =>
            refine .inl ⟨?_, ?_⟩
            · rw [show Collect.addFound ws (depPattern cmd pattern).pattern.package.project m.fs.content m.base p x = none
                by unfold Collect.addFound; rw [hpk]]; rfl
            · rw [show Collect.addFound ws (depPattern cmd pattern).pattern.package.project m'.fs.content m'.base p' x = none
                by unfold Collect.addFound; rw [hpk]]; rfl
          | some o =>
            have hl' : ∀ y ∈ l, GraphSpec.IsBuild y := fun y hy => hl y (by simp [hy])
            cases o with
            | none =>
              rw [show Collect.addFound ws (depPattern cmd pattern).pattern.package.project m.fs.content m.base p x = some p
                by unfold Collect.addFound; rw [hpk],
                show Collect.addFound ws (depPattern cmd pattern).pattern.package.project m'.fs.content m'.base p' x = some p'
                by unfold Collect.addFound; rw [hpk]]
              exact ih p p' hl' hp
            | some pkg =>
              obtain ⟨g, g', q, q', e1, e2, e3⟩ := addFile_same hp pkg x (o := m.fs.content x) (o' := m'.fs.content x)
                ((readAlike_of h (hl x (by simp)) ⟨ws, hws, .inl ((packageOf_project hpk).symm ▸ hpk)⟩).imp id
                  fun ⟨c, c', t, st, t', st', a1, a2, a3, a4, a5, _⟩ => ⟨c, c', t, st, t', st', a1, a2, a3, a4, a5⟩)
                (m.base x) (m'.base x)
              rw [show Collect.addFound ws (depPattern cmd pattern).pattern.package.project m.fs.content m.base p x = some q
                by unfold Collect.addFound; simp only [hpk, e1, Option.map_some],
                show Collect.addFound ws (depPattern cmd pattern).pattern.package.project m'.fs.content m'.base p' x = some q'
                by unfold Collect.addFound; simp only [hpk, e2, Option.map_some]]
              exact ih q q' hl' e3
      rcases key found {} {} hb rfl with ⟨e1, e2⟩ | ⟨q, q', e1, e2, e3⟩
      · simp only [e1, e2, Option.map_none]; exact .inl ⟨trivial, trivial⟩
      · simp only [e1, e2, Option.map_some]
        exact .inr ⟨_, _, _, rfl, rfl, inOrder_same e3⟩
  · exact .inr ⟨[], [], [], rfl, rfl, rfl⟩

theorem elaborateAll_same {u : Bool} {glob : BazelPackage → Elab.GlobFn} {keep keep' : Query.Result → BazelTarget → Nat → Bool} {e : Bool} :
    ∀ {l l' : Loaded}, SameLoaded (sorted u glob keep e) (sorted u glob keep' e) l l' →
      (elaborateAll glob l = none ∧ elaborateAll glob l' = none) ∨
        ∃ r r', elaborateAll glob l = some r ∧ elaborateAll glob l' = some r' ∧ SameLoaded (fun _ => view u keep) (fun _ => view u keep') r r'
  | [], [], _ => .inr ⟨[], [], rfl, rfl, rfl⟩
  | [], _ :: _, h => by simp [SameLoaded] at h
  | _ :: _, [], h => by simp [SameLoaded] at h
  | x :: l, x' :: l', h => by
    simp only [SameLoaded, List.map_cons, List.cons.injEq, Prod.mk.injEq] at h
    obtain ⟨⟨h1, h2, h3⟩, h4⟩ := h
    have hv := congrArg (·.1) h3
    simp only [sorted, h1] at hv
    rw [elaborateAll, elaborateAll, h1]
    rcases elaborateAll_same h4 with ⟨e1, e2⟩ | ⟨r, r', e1, e2, e3⟩
    · rw [e1, e2]
      left
      constructor <;> (split <;> simp_all)
    · rw [e1, e2]
      cases a1 : Elab.elabFile (glob x.1) x.2.ast with
      | none =>
        cases a2 : Elab.elabFile (glob x.1) x'.2.ast with
        | none => exact .inl ⟨rfl, rfl⟩
        | some u => rw [a1, a2] at hv; cases hv
      | some u =>
        cases a2 : Elab.elabFile (glob x.1) x'.2.ast with
        | none => rw [a1, a2] at hv; cases hv
        | some u' =>
          rw [a1, a2] at hv
          simp only [Option.map_some, Option.some.injEq] at hv
          refine .inr ⟨_, _, rfl, rfl, ?_⟩
          simp only [SameLoaded, List.map_cons, hv, h2]
          rw [e3]

theorem opened_same (h : SameMeaning flags cmd m m') {ws : Workspace.Map} (hws : workspaceOf m = some ws) (pattern : BazelPattern) :
    (opened m ws flags cmd pattern = none ∧ opened m' ws flags cmd pattern = none) ∨
      ∃ l l' msg, opened m ws flags cmd pattern = some (l, msg) ∧ opened m' ws flags cmd pattern = some (l', msg) ∧
        SameLoaded (fun _ => view (asksUnnamed cmd) (keepOf flags cmd m)) (fun _ => view (asksUnnamed cmd) (keepOf flags cmd m')) l l' := by
  have hg : m'.glob = m.glob := by rw [h.rest]
  unfold opened
  rcases fill_same h hws pattern with ⟨e1, e2⟩ | ⟨l, l', msg, e1, e2, e3⟩
  · rw [e1, e2]; exact .inl ⟨rfl, rfl⟩
  · rw [e1, e2, hg, Option.bind_some, Option.bind_some]
    cases he : elaborates flags cmd with
    | true =>
      rw [he] at e3
      rcases elaborateAll_same e3 with ⟨a1, a2⟩ | ⟨r, r', a1, a2, a3⟩
      · simp only [a1, a2]; exact .inl ⟨rfl, rfl⟩
      · simp only [a1, a2]; exact .inr ⟨_, _, _, rfl, rfl, a3⟩
    | false =>
      refine .inr ⟨_, _, _, rfl, rfl, ?_⟩
      rw [he] at e3
      have key : ∀ (k : Query.Result → BazelTarget → Nat → Bool) (l : Loaded), (l.map fun x => (x.1, x.2.name, view (asksUnnamed cmd) k x.2.ast)) =
          (l.map fun x => (x.1, x.2.name, sorted (asksUnnamed cmd) m.glob k false x.1 x.2.ast)).map fun x => (x.1, x.2.1, x.2.2.2.getD (view (asksUnnamed cmd) k .null)) := by
        intro k l
        rw [List.map_map]
        rfl
      have key2 : ∀ (l : Loaded), (l.map fun x => (x.1, x.2.name, view (asksUnnamed cmd) (keepOf flags cmd m') x.2.ast)) =
          (l.map fun x => (x.1, x.2.name, sorted (asksUnnamed cmd) m.glob (keepOf flags cmd m') false x.1 x.2.ast)).map
            fun x => (x.1, x.2.1, x.2.2.2.getD (view (asksUnnamed cmd) (keepOf flags cmd m) .null)) := by
        intro l
        rw [List.map_map]
        rfl
      unfold SameLoaded
      rw [key2 l', key _ l, e3]

/-! ### The graph -/

theorem path_same (h : SameMeaning flags cmd m m') (ws : Workspace.Map) (pkg : BazelPackage) :
    DepGraph.pathForPackage (world m' ws) pkg = DepGraph.pathForPackage (world m ws) pkg := by
  have hfs : m'.fs = { m.fs with content := m'.fs.content } := congrArg Machine.fs h.rest
  simp only [DepGraph.pathForPackage, world]
  rw [hfs]

/-- Both are undefined, there is nothing in both, or the same is found. -/
def SameTree (u : Bool) (keep keep' : Query.Result → BazelTarget → Nat → Bool) (o o' : Option (Option Node)) : Prop :=
  (o = none ∧ o' = none) ∨ (o = some none ∧ o' = some none) ∨
    ∃ t t', o = some (some t) ∧ o' = some (some t') ∧ view u keep' t' = view u keep t

theorem graphLoad_same (h : SameMeaning flags cmd m m') {ws : Workspace.Map} (hws : workspaceOf m = some ws) (pkg : BazelPackage) :
    SameTree (asksUnnamed cmd) (keepOf flags cmd m) (keepOf flags cmd m') (DepGraph.load (world m ws) pkg)
      (DepGraph.load (world m' ws) pkg) := by
  have hg : m'.glob = m.glob := by rw [h.rest]
  unfold DepGraph.load
  rw [path_same h]
  cases hp : DepGraph.pathForPackage (world m ws) pkg with
  | none => exact .inr (.inl ⟨rfl, rfl⟩)
  | some path =>
    simp only [world, hg]
    rcases readAlike_of h (Layout.path_build hp) ⟨ws, hws, .inr hp⟩ with ⟨h1, h2⟩ | ⟨c, c', t, st, t', st', h1, h2, h3, h4, _, h5⟩
    · rw [h1, h2]; exact .inl ⟨rfl, rfl⟩
    · rw [h1, h2]
      simp only [h3, h4]
      have hv := h5
      cases a1 : Elab.elabFile (m.glob pkg) t with
      | none =>
        cases a2 : Elab.elabFile (m.glob pkg) t' with
        | none => exact .inl ⟨rfl, rfl⟩
        | some u => rw [a1, a2] at hv; cases hv
      | some u =>
        cases a2 : Elab.elabFile (m.glob pkg) t' with
        | none => rw [a1, a2] at hv; cases hv
        | some u' =>
          rw [a1, a2] at hv
          simp only [Option.map_some, Option.some.injEq] at hv
          exact .inr (.inr ⟨u, u', rfl, rfl, hv⟩)

variable {u : Bool} {keep keep' : Query.Result → BazelTarget → Nat → Bool}

theorem lookup_views {l l' : Files} (h : views u keep' l' = views u keep l) (pkg : BazelPackage) :
    (lookup l pkg = none ∧ lookup l' pkg = none) ∨
      ∃ t t', lookup l pkg = some t ∧ lookup l' pkg = some t' ∧ view u keep' t' = view u keep t := by
  induction l generalizing l' with
  | nil =>
    cases l' with
    | nil => exact .inl ⟨rfl, rfl⟩
    | cons _ _ => simp [views] at h
  | cons x l ih =>
    cases l' with
    | nil => simp [views] at h
    | cons x' l' =>
      simp only [views, List.map_cons, List.cons.injEq, Prod.mk.injEq] at h
      unfold lookup
      simp only [List.find?_cons, h.1.1]
      by_cases hk : x.1 = pkg
      · simp only [hk, decide_true, Option.map_some]
        exact .inr ⟨x.2, x'.2, rfl, rfl, h.1.2⟩
      · simp only [hk, decide_false]
        exact ih h.2

theorem insertNew_views {l l' : Files} (h : views u keep' l' = views u keep l) (pkg : BazelPackage) {t t' : Node}
    (ht : view u keep' t' = view u keep t) : views u keep' (insertNew pkg t' l') = views u keep (insertNew pkg t l) := by
  have hany : (l'.any fun e => e.1 = pkg) = l.any fun e => e.1 = pkg := by
    have e : ∀ (k : Query.Result → BazelTarget → Nat → Bool) (n : Files),
        (n.any fun e => e.1 = pkg) = (views u k n).any fun e => e.1 = pkg := by
      intro k n; unfold views; rw [List.any_map]; rfl
    rw [e keep' l', e keep l, h]
  unfold insertNew
  rw [hany]
  split
  · exact h
  · unfold views
    rw [place_map (fun f : BazelPackage × Node => (f.1, view u keep' f.2)) (fun _ => rfl),
      place_map (fun f : BazelPackage × Node => (f.1, view u keep f.2)) (fun _ => rfl), ht]
    unfold views at h
    rw [h]

/-- Both are undefined, or the same is found in the files, and `R` holds for the rest. -/
def SameNow (u : Bool) {ρ : Type} (keep keep' : Query.Result → BazelTarget → Nat → Bool) (o o' : Option (Files × ρ)) : Prop :=
  (o = none ∧ o' = none) ∨ ∃ l l' r, o = some (l, r) ∧ o' = some (l', r) ∧ views u keep' l' = views u keep l

section
variable {w w' : DepGraph.World} (hl : ∀ pkg, SameTree u keep keep' (DepGraph.load w pkg) (DepGraph.load w' pkg))
include hl

theorem parseMissing_same (pkgs : List BazelPackage) : ∀ {l l' : Files}, views u keep' l' = views u keep l →
    (DepGraph.parseMissing w l pkgs = none ∧ DepGraph.parseMissing w' l' pkgs = none) ∨
      ∃ r r', DepGraph.parseMissing w l pkgs = some r ∧ DepGraph.parseMissing w' l' pkgs = some r' ∧
        views u keep' r' = views u keep r := by
  induction pkgs with
  | nil => exact fun h => .inr ⟨_, _, rfl, rfl, h⟩
  | cons pkg pkgs ih =>
    intro l l' h
    rw [DepGraph.parseMissing, DepGraph.parseMissing]
    rcases lookup_views h pkg with ⟨h1, h2⟩ | ⟨t, t', h1, h2, h3⟩
    · rw [h1, h2]
      rcases hl pkg with ⟨e1, e2⟩ | ⟨e1, e2⟩ | ⟨t, t', e1, e2, e3⟩
      · rw [e1, e2]; exact .inl ⟨rfl, rfl⟩
      · rw [e1, e2]; exact ih h
      · rw [e1, e2]; exact ih (insertNew_views h pkg e3)
    · rw [h1, h2]; exact ih h

omit hl in
theorem scan_same (pkgs : List BazelPackage) {l l' : Files} (h : views u keep' l' = views u keep l) (st : DepGraph.Round) :
    DepGraph.scan l' st pkgs = DepGraph.scan l st pkgs := by
  have hvis : ∀ (pkg : BazelPackage) (rs rs' : List Query.Result) (st : DepGraph.Round),
      rs'.map (fun r => (told r, keep' r)) = rs.map (fun r => (told r, keep r)) →
      DepGraph.visitAll pkg st rs' = DepGraph.visitAll pkg st rs := by
    intro pkg rs
    induction rs with
    | nil =>
      intro rs' st h
      cases rs' with
      | nil => rfl
      | cons _ _ => simp at h
    | cons r rs ih =>
      intro rs' st h
      cases rs' with
      | nil => simp at h
      | cons r' rs' =>
        simp only [List.map_cons, List.cons.injEq, Prod.mk.injEq] at h
        have hr := same_of h.1.1
        have e : DepGraph.visit pkg st r' = DepGraph.visit pkg st r := by
          simp only [DepGraph.visit, hr.name, hr.deps, hr.actual]
        rw [DepGraph.visitAll, DepGraph.visitAll, e]
        split
        · rfl
        · exact ih _ _ h.2
  induction pkgs generalizing st with
  | nil => rfl
  | cons pkg pkgs ih =>
    rw [DepGraph.scan, DepGraph.scan]
    rcases lookup_views h pkg with ⟨h1, h2⟩ | ⟨t, t', h1, h2, h3⟩
    · rw [h1, h2]; exact ih st
    · rw [h1, h2]
      rcases found_same h3 false [] with ⟨e1, e2⟩ | ⟨rs, rs', e1, e2, e3⟩
      · simp only [e1, e2]
      · simp only [e1, e2, hvis pkg rs rs' st e3, ih]

theorem round_same {l l' : Files} (h : views u keep' l' = views u keep l) (g : DepGraph.Graph) (todo : List BazelTarget) :
    SameNow u keep keep' (DepGraph.round w l g todo) (DepGraph.round w' l' g todo) := by
  unfold DepGraph.round
  simp only
  rcases parseMissing_same hl (todo.foldl (fun s t => add t.package s) []) h with ⟨e1, e2⟩ | ⟨r, r', e1, e2, e3⟩
  · rw [e1, e2]; exact .inl ⟨rfl, rfl⟩
  · rw [e1, e2]
    simp only [scan_same _ e3]
    cases DepGraph.scan r { todo := todo, graph := g } (todo.foldl (fun s t => add t.package s) []) with
    | none => exact .inl ⟨rfl, rfl⟩
    | some st => exact .inr ⟨r, r', st, rfl, rfl, e3⟩

theorem rounds_same (n : Nat) : ∀ {l l' : Files} (_ : views u keep' l' = views u keep l) (g : DepGraph.Graph)
    (todo : List BazelTarget),
    SameNow u keep keep' (DepGraph.rounds w l g todo n) (DepGraph.rounds w' l' g todo n) := by
  induction n with
  | zero =>
    intro l l' h g todo
    rw [DepGraph.rounds, DepGraph.rounds]
    rcases round_same hl h g todo with ⟨e1, e2⟩ | ⟨r, r', st, e1, e2, e3⟩
    · rw [e1, e2]; exact .inl ⟨rfl, rfl⟩
    · rw [e1, e2]; exact .inr ⟨_, _, _, rfl, rfl, e3⟩
  | succ n ih =>
    intro l l' h g todo
    rw [DepGraph.rounds, DepGraph.rounds]
    rcases round_same hl h g todo with ⟨e1, e2⟩ | ⟨r, r', st, e1, e2, e3⟩
    · rw [e1, e2]; exact .inl ⟨rfl, rfl⟩
    · rw [e1, e2]
      simp only
      split
      · exact .inr ⟨_, _, _, rfl, rfl, e3⟩
      · exact ih e3 _ _

theorem build_same {l l' : Files} (h : views u keep' l' = views u keep l) (pattern : BazelPattern) (depth : Int) :
    SameNow u keep keep' (DepGraph.build w pattern depth l) (DepGraph.build w' pattern depth l') := by
  have hi : DepGraph.initial pattern l' = DepGraph.initial pattern l := by
    unfold DepGraph.initial
    congr 1
    refine mapAll_files h fun pkg t t' ht => ?_
    simp only
    split
    · rfl
    · exact forTargets_same ht _ fun r r' hr _ => by simp only [hr.name]
  unfold DepGraph.build
  rw [hi]
  cases DepGraph.initial pattern l with
  | none => exact .inl ⟨rfl, rfl⟩
  | some todo => exact rounds_same hl _ h _ _
end

theorem trees_same {l l' : Loaded} (h : SameLoaded (fun _ => view u keep) (fun _ => view u keep') l l') :
    views u keep' (trees l') = views u keep (trees l) := by
  have key : ∀ (k : Query.Result → BazelTarget → Nat → Bool) (l : Loaded),
      views u k (trees l) = (l.map fun x => (x.1, x.2.name, view u k x.2.ast)).map fun x => (x.1, x.2.2) := by
    intro k l
    simp only [views, trees, List.map_map]
    rfl
  rw [key, key, h]

theorem lookup_loaded {l l' : Loaded} (h : SameLoaded (fun _ => view u keep) (fun _ => view u keep') l l') (pkg : BazelPackage) :
    (lookup l pkg = none ∧ lookup l' pkg = none) ∨
      ∃ f f', lookup l pkg = some f ∧ lookup l' pkg = some f' ∧ f'.name = f.name ∧
        view u keep' f'.ast = view u keep f.ast := by
  induction l generalizing l' with
  | nil =>
    cases l' with
    | nil => exact .inl ⟨rfl, rfl⟩
    | cons _ _ => simp [SameLoaded] at h
  | cons x l ih =>
    cases l' with
    | nil => simp [SameLoaded] at h
    | cons x' l' =>
      simp only [SameLoaded, List.map_cons, List.cons.injEq, Prod.mk.injEq] at h
      unfold lookup
      simp only [List.find?_cons, h.1.1]
      by_cases hk : x.1 = pkg
      · simp only [hk, decide_true, Option.map_some]
        exact .inr ⟨x.2, x'.2, rfl, rfl, h.1.2⟩
      · simp only [hk, decide_false]
        exact ih h.2

theorem expanded_same (h : SameMeaning flags cmd m m') (ws : Workspace.Map) {l l' : Loaded}
    (hl : SameLoaded (fun _ => view u keep) (fun _ => view u keep') l l') : ∀ {now now' : Files}, views u keep' now' = views u keep now →
    SameLoaded (fun _ => view u keep) (fun _ => view u keep') (expanded (world m ws) l now) (expanded (world m' ws) l' now')
  | [], [], _ => rfl
  | [], _ :: _, h => by simp [views] at h
  | _ :: _, [], h => by simp [views] at h
  | x :: now, x' :: now', hn => by
    simp only [views, List.map_cons, List.cons.injEq, Prod.mk.injEq] at hn
    have ih := expanded_same h ws hl hn.2
    simp only [SameLoaded, expanded, List.map_cons, List.cons.injEq, Prod.mk.injEq, hn.1.1, true_and] at ih ⊢
    refine ⟨?_, ih⟩
    rcases lookup_loaded hl x.1 with ⟨e1, e2⟩ | ⟨f, f', e1, e2, e3, e4⟩
    · rw [e1, e2]
      simp only [Option.getD_none, added, path_same h]
      split
      · exact ⟨rfl, hn.1.2⟩
      · exact ⟨rfl, hn.1.2⟩
    · rw [e1, e2]; exact ⟨e3, e4⟩

/-! ### A run -/

/-- Prepared alike. -/
structure SamePrepared (u : Bool) (keep keep' : Query.Result → BazelTarget → Nat → Bool) (p p' : Prepared) : Prop where
  workspace : p'.workspace = p.workspace
  files : SameLoaded (fun _ => view u keep) (fun _ => view u keep') p.files p'.files
  graph : p'.graph = p.graph
  message : p'.message = p.message

theorem prepare_same (h : SameMeaning flags cmd m m') (pattern : BazelPattern) :
    (prepare m flags cmd pattern = none ∧ prepare m' flags cmd pattern = none) ∨
      (prepare m flags cmd pattern = some none ∧ prepare m' flags cmd pattern = some none) ∨
      ∃ p p', prepare m flags cmd pattern = some (some p) ∧ prepare m' flags cmd pattern = some (some p') ∧
        SamePrepared (asksUnnamed cmd) (keepOf flags cmd m) (keepOf flags cmd m') p p' := by
  have hfs : m'.fs = { m.fs with content := m'.fs.content } := congrArg Machine.fs h.rest
  have haug : ∀ ws, Workspace.augment m'.fs ws = Workspace.augment m.fs ws := by
    intro ws; rw [hfs]; rfl
  unfold prepare
  rw [load_same h]
  cases hld : Workspace.load m.fs with
  | none => exact .inl ⟨rfl, rfl⟩
  | some o =>
    cases o with
    | none => exact .inr (.inl ⟨rfl, rfl⟩)
    | some ws =>
      simp only [haug, prepareIn]
      have hws : workspaceOf m = some (Workspace.augment m.fs ws).2 := by
        unfold workspaceOf
        rw [hld]
      generalize (Workspace.augment m.fs ws).2 = ws at hws
      rcases opened_same h hws pattern with ⟨e1, e2⟩ | ⟨l, l', msg, e1, e2, e3⟩
      · rw [e1, e2]; exact .inl ⟨rfl, rfl⟩
      · rw [e1, e2, Option.bind_some, Option.bind_some]
        unfold follow
        split
        · change (Option.map _ (Option.map _ (Option.map (fun r => (expanded (world m ws) l r.1, r.2))
              (DepGraph.build (world m ws) _ _ _))) = none ∧
            Option.map _ (Option.map _ (Option.map (fun r => (expanded (world m' ws) l' r.1, r.2))
              (DepGraph.build (world m' ws) _ _ _))) = none) ∨
            (Option.map _ (Option.map _ (Option.map (fun r => (expanded (world m ws) l r.1, r.2))
              (DepGraph.build (world m ws) _ _ _))) = some none ∧
            Option.map _ (Option.map _ (Option.map (fun r => (expanded (world m' ws) l' r.1, r.2))
              (DepGraph.build (world m' ws) _ _ _))) = some none) ∨ _
          rcases build_same (graphLoad_same h hws) (trees_same e3) (depPattern cmd pattern) (depthOf flags cmd) with
            ⟨a1, a2⟩ | ⟨r, r', g, a1, a2, a3⟩
          · rw [a1, a2]; exact .inl ⟨rfl, rfl⟩
          · rw [a1, a2]
            refine .inr (.inr ⟨⟨ws, expanded (world m ws) l r, g, msg⟩, ⟨ws, expanded (world m' ws) l' r', g, msg⟩,
              ?_, ?_, rfl, expanded_same h ws e3 a3, rfl, rfl⟩)
            · change Option.map _ (Option.map _ (Option.map (fun r => (expanded (world m ws) l r.1, r.2))
                (DepGraph.build (world m ws) _ _ _))) = _
              rw [a1]; rfl
            · change Option.map _ (Option.map _ (Option.map (fun r => (expanded (world m' ws) l' r.1, r.2))
                (DepGraph.build (world m' ws) _ _ _))) = _
              rw [a2]; rfl
        · exact .inr (.inr ⟨_, _, rfl, rfl, rfl, e3, rfl, rfl⟩)

theorem packageRows_same {γ : Type} {f f' : BazelPackage → Node → γ} {l l' : Loaded} (h : SameLoaded f f' l l') :
    packageRows l' = packageRows l := by
  have key : ∀ (f : BazelPackage → Node → γ) (l : Loaded), packageRows l =
      (l.map fun x => (x.1, x.2.name, f x.1 x.2.ast)).map fun x => .row [x.2.1, x.1.toString] := by
    intro f l
    simp only [packageRows, List.map_map]
    rfl
  rw [key f', key f, h]

theorem perform_same (h : SameMeaning flags cmd m m') (hp : cmd ≠ .print)
    (hq : cmd = .parse → flags.printAst = false ∧ flags.onlyErrors = false) (pattern : BazelPattern) {p p' : Prepared}
    (hs : SamePrepared (asksUnnamed cmd) (keepOf flags cmd m) (keepOf flags cmd m') p p') :
    perform m' flags cmd pattern p' = perform m flags cmd pattern p := by
  have ht := trees_same hs.files
  have hcwd : m'.cwd = m.cwd := by rw [h.rest]
  cases cmd with
  | print => exact absurd rfl hp
  | parse =>
    obtain ⟨h1, h2⟩ := hq rfl
    simp only [perform, h1, h2]
    rfl
  | libraryHeaders => simp only [perform, headerMap, headerAdds_same ht]
  | genruleOutputs => simp only [perform, genruleMap, genruleAdds_same ht]
  | dwyu =>
    simp only [perform]
    rw [dwyu_same (env := ⟨m.fs.content, p.workspace, m.line, flags.ignoreKeep⟩)
      (env' := ⟨m'.fs.content, p'.workspace, m'.line, flags.ignoreKeep⟩) ht h.missing (h.includes rfl)
      hs.workspace (fun r n => by simp [keepOf]) (fun r n => by simp [keepOf])]
  | canonicalizeDeps => simp only [perform, canonEdits_same ht]
  | listPackages => simp only [perform, packageRows_same hs.files]
  | listTargets => simp only [perform, h.places rfl, allTargetRows_same _ _ ht]
  | listWorkspace => simp only [perform, WorkspaceCmd.output, filtered_same rfl ht, hs.workspace]
  | aliasedBy => simp only [perform, aliasMap, aliases_same ht]
  | dependsOn => simp only [perform, hs.graph]
  | hasDependents => simp only [perform, hs.graph]
  | compilationDB =>
    simp only [perform, CompDb.database, hs.workspace, hcwd, h.settings, incDirs_same ht, fileSources_same ht]
  | compileFlags => simp only [perform, CompDb.flags, hs.workspace, h.settings, incDirs_same ht]

theorem run_same (h : SameMeaning flags cmd m m') (hp : cmd ≠ .print)
    (hq : cmd = .parse → flags.printAst = false ∧ flags.onlyErrors = false) (pattern : BazelPattern) :
    runCommand m' flags cmd pattern = runCommand m flags cmd pattern := by
  unfold runCommand
  rcases prepare_same h pattern with ⟨e1, e2⟩ | ⟨e1, e2⟩ | ⟨p, p', e1, e2, e3⟩
  · rw [e1, e2]
  · rw [e1, e2]
  · rw [e1, e2]
    simp only [perform_same h hp hq pattern e3, e3.message]

end
end RulesSpec
end Bant
