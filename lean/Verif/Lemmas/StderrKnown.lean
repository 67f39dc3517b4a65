import Verif.Lemmas.LocatedCommands
import Verif.Lemmas.DwyuMessages
import Verif.Model.Stderr
import Verif.Props.Messages

/-! What is said is always known: messages do not stop a run. -/
namespace Bant
namespace Stderr
open Commands Headers Cli
open Located (each each_some each_mem Source Holding Held Rule View From AllFrom Fine InFile RangeIn)
open Query (mapAll)
open Project (Malformed)
open CommandSpec (workspaceOf)

/-! ### Files -/

/-- What the parser says about a file. -/
theorem ofFile_known (name content : Str) :
    ∃ ms, Messages.ofFile name content = some ms ∧ (ms ≠ [] ↔ Malformed content) ∧ ∀ x ∈ ms, x ≠ [] := by
  obtain ⟨ts, hts, _⟩ := Parser.tokensOf_exists content
  obtain ⟨l, h1, h2, _⟩ := Props.C113_messages_partial name content ts hts
  refine ⟨_, h1, by simpa using h2, fun x hx => ?_⟩
  obtain ⟨r, _, rfl⟩ := List.mem_map.1 hx
  simp

theorem loc_known {s : Source} (hl : s.lines = Project.linesOf s.content) {v : View} (hv : Fine s.content v) :
    ∃ l, s.loc v = some l := by
  unfold Source.loc
  rw [hl]
  rcases hv with ⟨pos, h1, h2, _⟩ | ⟨b, e, h1, h2, h3, _⟩
  · obtain ⟨r, hr⟩ := Located.getLocation_known (b := pos) h2
    exact ⟨_, by rw [h1]; simp only [hr]; rfl⟩
  · obtain ⟨r, hr⟩ := Located.getLocation_known (b := b) h3
    exact ⟨_, by rw [h1]; simp only [hr]; rfl⟩

theorem findTargets_known {allow : Bool} {t : Located.Tree} {rules : List Str} :
    (Query.findTargets allow t.plain rules).isSome = (Located.findTargets allow t rules).isSome := by
  rw [Located.findTargets_plain]; cases Located.findTargets allow t rules <;> rfl

theorem findTargets_named {allow : Bool} {t : Located.Tree} {rules : List Str} {rs : List Rule}
    (h : Located.findTargets allow t rules = some rs) (ha : allow = false) : ∀ r ∈ rs, r.name.text ≠ [] := by
  intro r hr
  obtain ⟨_, _, _, _, _, _, _, _, _, h2⟩ := Located.findTargets_sites h r hr
  exact h2 ha

/-! ### The workspace -/

theorem workspaceFile_known {fs : Workspace.FileSystem} {r r' : Bool × Workspace.Map} {ws : Str}
    (h : Workspace.loadFile fs r ws = some r') : ∃ x, workspaceFile fs ws = some x := by
  unfold Workspace.loadFile at h
  unfold workspaceFile
  cases hc : fs.content ws with
  | none => exact ⟨_, rfl⟩
  | some content =>
    rw [hc] at h
    simp only at h
    obtain ⟨ms, h1, _⟩ := ofFile_known ws content
    cases hp : Parser.parseFile content with
    | none => rw [hp] at h; cases h
    | some a =>
      obtain ⟨ast, st⟩ := a
      rw [hp] at h
      simp only at h
      obtain ⟨t, h3, h4, h5⟩ := Located.parseFile_same hp
      have h5 := (Located.parseFile_located h3).2
      subst h4
      cases hf : Query.findTargets false t.plain [c!"http_archive", c!"bazel_dep"] with
      | none => rw [hf] at h; cases h
      | some found =>
        rw [Located.findTargets_plain] at hf
        obtain ⟨rs, h6, rfl⟩ := Option.map_eq_some_iff.1 hf
        have h7 := Located.findTargets_all h5 h6
        have h8 := findTargets_named h6 rfl
        simp only [h1, h3, h6, Option.bind_some]
        have hl : ∀ r ∈ rs, ∃ loc, (⟨ws, content, (Project.scanTimes st.scans (Scanner.init content)).lines⟩ : Source).loc
            r.name = some loc := fun r hr =>
          loc_known (by simp [Project.linesOf, hp]) (.inl ((h7 r hr).name (h8 r hr)))
        obtain ⟨ys, hy⟩ := each_some (l := rs.filter fun r => (Workspace.projectDir fs r.plain).isNone)
          (f := fun r => ((⟨ws, content, (Project.scanTimes st.scans (Scanner.init content)).lines⟩ : Source).loc
            r.name).map fun loc => notExtracted loc r.name.text) fun r hr => by
            obtain ⟨loc, hloc⟩ := hl r (List.mem_filter.1 hr).1
            exact ⟨_, by rw [hloc]; rfl⟩
        exact ⟨_, by rw [hy]; rfl⟩

theorem workspace_known {fs : Workspace.FileSystem} (h : Workspace.load fs ≠ none) :
    ∃ said, workspace fs = some said := by
  unfold workspace
  suffices ∀ files r, List.foldlM (Workspace.loadFile fs) r files ≠ none → ∃ l, each (workspaceFile fs) files = some l by
    obtain ⟨l, hl⟩ := this Workspace.wsFiles (false, []) (by
      intro h0
      unfold Workspace.load at h
      rw [h0] at h
      exact h rfl)
    exact ⟨_, by rw [hl]; rfl⟩
  intro files
  induction files with
  | nil => exact fun _ _ => ⟨[], rfl⟩
  | cons f files ih =>
    intro r hr
    rw [List.foldlM_cons] at hr
    cases h1 : Workspace.loadFile fs r f with
    | none => rw [h1] at hr; exact absurd rfl hr
    | some r' =>
      rw [h1] at hr
      obtain ⟨x, hx⟩ := workspaceFile_known h1
      obtain ⟨l, hl⟩ := ih r' hr
      exact ⟨_, by rw [each, hx, hl]⟩

/-! ### Loading -/

theorem addFile_known (p : Project.State) (pkg : BazelPackage) (file : Str) (content : Option Str) :
    ∃ said, addFile p pkg file content = some said := by
  unfold addFile
  repeat' split
  all_goals first
    | exact ⟨_, rfl⟩
    | (rename_i c _ _
       obtain ⟨ms, h, _⟩ := ofFile_known file c
       exact ⟨_, by rw [h]; rfl⟩)

theorem addAll_known {m : Machine} {ws : Workspace.Map} {project : Str} {files : List Str} {p q : Project.State}
    (h : files.foldlM (Collect.addFound ws project m.fs.content m.base) p = some q) :
    ∃ said, addAll m ws project p files = some said := by
  induction files generalizing p with
  | nil => exact ⟨[], rfl⟩
  | cons f files ih =>
    rw [List.foldlM_cons] at h
    cases h1 : Collect.addFound ws project m.fs.content m.base p f with
    | none => rw [h1] at h; cases h
    | some p' =>
      rw [h1] at h
      obtain ⟨l, hl⟩ := ih h
      have : ∃ said, addFound m ws project p f = some said := by
        unfold addFound
        unfold Collect.addFound at h1
        cases hp : Collect.packageOf ws f project with
        | none => rw [hp] at h1; cases h1
        | some o =>
          cases o with
          | none => exact ⟨_, rfl⟩
          | some pkg => exact addFile_known p pkg f _
      obtain ⟨x, hx⟩ := this
      exact ⟨_, by rw [addAll, hx, h1]; simp only [hl]; rfl⟩

theorem fill_known {m : Machine} {ws : Workspace.Map} {cmd : Command} {pattern : BazelPattern} {r : Holding × Str}
    (h : Located.fill m ws cmd pattern = some r) : ∃ said, fill m ws cmd pattern = some said := by
  unfold Located.fill at h
  unfold fill
  split at h
  · rename_i hn
    rw [if_pos hn]
    obtain ⟨⟨p, n⟩, h1, _⟩ := Option.bind_eq_some_iff.1 h
    unfold Collect.fillFromPattern at h1
    cases hc : Collect.collectBuildFiles m.tree m.symlink ws (depPattern cmd pattern) m.steps with
    | none => rw [hc] at h1; cases h1
    | some files =>
      rw [hc] at h1
      obtain ⟨q, h2, _⟩ := Option.map_eq_some_iff.1 h1
      obtain ⟨l, hl⟩ := addAll_known h2
      exact ⟨_, by simp only [hc, Option.bind_some, hl, Option.map_some]; rfl⟩
  · rename_i hn
    exact ⟨[], by rw [if_neg hn]⟩

/-! ### The graph -/

theorem missing_known {w : DepGraph.World} {files now : Files} {ps : List BazelPackage}
    (h : DepGraph.parseMissing w files ps = some now) : ∃ r, missing w files ps = some r := by
  induction ps generalizing files with
  | nil => exact ⟨_, rfl⟩
  | cons pkg ps ih =>
    rw [DepGraph.parseMissing] at h
    rw [missing]
    cases hl : lookup files pkg with
    | some a => rw [hl] at h; simp only at h ⊢; exact ih h
    | none =>
      rw [hl] at h
      simp only at h ⊢
      unfold DepGraph.load at h
      cases hp : DepGraph.pathForPackage w pkg with
      | none =>
        rw [hp] at h
        obtain ⟨r, hr⟩ := ih h
        exact ⟨_, by simp only [hr]; rfl⟩
      | some path =>
        rw [hp] at h
        simp only at h ⊢
        have h0 := h
        cases hc : w.fs.content path with
        | none => rw [hc] at h; cases h
        | some content =>
          rw [hc] at h
          simp only at h
          cases hf : Parser.parseFile content with
          | none => rw [hf] at h; cases h
          | some a =>
            obtain ⟨ast, st⟩ := a
            rw [hf] at h
            simp only at h
            cases he : Elab.elabFile (w.glob pkg) ast with
            | none => rw [he] at h; cases h
            | some t =>
              rw [he] at h
              obtain ⟨r, hr⟩ := ih h
              obtain ⟨ms, hm, _⟩ := ofFile_known path content
              refine ⟨(r.1, ms ++ r.2), ?_⟩
              simp only [Option.bind_some, hm, DepGraph.parseMissing, hl, DepGraph.load, hp, hc, hf, he,
                Option.map_some, hr]

theorem round_known {w : DepGraph.World} {files now : Files} {g : DepGraph.Graph} {todo : List BazelTarget}
    {st : DepGraph.Round} (a : Account) (h : DepGraph.round w files g todo = some (now, st)) :
    ∃ a', round w files g todo a = some (now, st, a') := by
  unfold round
  have h0 := h
  unfold DepGraph.round at h
  cases hp : DepGraph.parseMissing w files (todo.foldl (fun s t => add t.package s) []) with
  | none => simp only [hp] at h; cases h
  | some x =>
    obtain ⟨r, hr⟩ := missing_known hp
    exact ⟨_, by rw [hr, h0]⟩

theorem rounds_known {w : DepGraph.World} {files now : Files} {g g' : DepGraph.Graph} {todo : List BazelTarget}
    (n : Nat) (a : Account) (h : DepGraph.rounds w files g todo n = some (now, g')) :
    ∃ a', rounds w files g todo a n = some a' := by
  induction n generalizing files g todo a with
  | zero =>
    rw [DepGraph.rounds] at h
    obtain ⟨⟨f, st⟩, h1, _⟩ := Option.map_eq_some_iff.1 h
    obtain ⟨a', h2⟩ := round_known a h1
    exact ⟨_, by rw [rounds, h2]; rfl⟩
  | succ n ih =>
    rw [DepGraph.rounds] at h
    rw [rounds]
    cases h1 : DepGraph.round w files g todo with
    | none => rw [h1] at h; cases h
    | some x =>
      obtain ⟨f, st⟩ := x
      obtain ⟨a', h2⟩ := round_known a h1
      rw [h1] at h
      rw [h2]
      simp only at h ⊢
      split at h
      · rename_i hn; rw [if_pos hn]; exact ⟨_, rfl⟩
      · rename_i hn; rw [if_neg hn]; exact ih _ h

theorem graph_known {m : Machine} {ws : Workspace.Map} {flags : Flags} {cmd : Command} {pattern : BazelPattern}
    {l : Holding} {r : Holding × DepGraph.Graph} (h : Located.follow m ws flags cmd pattern l = some r) :
    ∃ said, graph m ws flags cmd pattern (trees (Located.plainOf l)) = some said := by
  unfold Located.follow at h
  unfold graph
  split at h
  · rename_i hn
    rw [if_pos hn]
    obtain ⟨⟨now, g⟩, h1, _⟩ := Option.bind_eq_some_iff.1 h
    have h0 := h1
    unfold DepGraph.build at h1
    cases hi : DepGraph.initial (depPattern cmd pattern) (trees (Located.plainOf l)) with
    | none => rw [hi] at h1; cases h1
    | some todo =>
      rw [hi] at h1
      obtain ⟨a, ha⟩ := rounds_known _ {} h1
      exact ⟨_, by simp only [Option.bind_some, ha, h0]; rfl⟩
  · rename_i hn
    exact ⟨[], by rw [if_neg hn]⟩

/-! ### Commands -/

theorem each_known {α β : Type} {f : α → Option β} {l : List α} (h : ∀ x ∈ l, (f x).isSome) : (each f l).isSome := by
  obtain ⟨r, hr⟩ := each_some fun x hx => Option.isSome_iff_exists.1 (h x hx)
  rw [hr]; rfl

theorem mapAll_isSome {α β : Type} {f : α → Option (List β)} {l : List α} :
    (mapAll f l).isSome = true ↔ ∀ x ∈ l, (f x).isSome = true := by
  induction l with
  | nil => simp [mapAll]
  | cons x l ih =>
    rw [mapAll]
    cases hx : f x with
    | none => simp [hx]
    | some ys => simp [hx, ih]

theorem stringList_known (l : Option Located.ListRef) :
    (Query.stringList (Located.plainRef l)).isSome = (Located.stringList l).isSome := by
  rw [Located.stringList_plain]; cases Located.stringList l <;> rfl

theorem from_locs {m : Machine} {evaluated : Bool} {pkg : BazelPackage} {f : Held} (hf : Located.From m evaluated pkg f)
    {l : Option Located.ListRef} {vs : List View}
    (hl : Located.RefAll (Fine f.source.content) (RangeIn f.source.content) (InFile f.source.content) l)
    (hs : Located.stringList l = some vs) : ∀ v ∈ vs, ∃ loc, f.source.loc v = some loc :=
  fun v hv => hf.loc (Located.stringList_all hl hs v hv)

/-- The texts of the rules of a file. -/
theorem from_rules {m : Machine} {evaluated : Bool} {pkg : BazelPackage} {f : Held} (hf : Located.From m evaluated pkg f)
    {allow : Bool} {kinds : List Str} {rs : List Rule} (h : Located.findTargets allow f.tree kinds = some rs) :
    ∀ r ∈ rs, Located.RuleAll (Fine f.source.content) (RangeIn f.source.content) (InFile f.source.content) r :=
  Located.findTargets_all hf.fine h

theorem trees_plainOf (l : Holding) : trees (Located.plainOf l) = l.map fun f => (f.1, f.2.tree.plain) := by
  simp [trees, Located.plainOf, Held.plain]

theorem forTargets_isSome {β : Type} {t : Located.Tree} {kinds : List Str} {f : Query.Result → Option (List β)} :
    (Query.forTargets t.plain kinds f).isSome = true ↔
      ∃ rs, Located.findTargets false t kinds = some rs ∧ ∀ r ∈ rs, (f r.plain).isSome = true := by
  unfold Query.forTargets
  rw [Located.findTargets_plain]
  cases Located.findTargets false t kinds with
  | none => simp
  | some rs => simp [mapAll_isSome]

theorem canonicalize_known {m : Machine} {pattern : BazelPattern} {files : Holding}
    (hf : ∀ f ∈ files, ∃ evaluated, Located.From m evaluated f.1 f.2)
    (h : (canonEdits pattern (trees (Located.plainOf files))).isSome = true) :
    (canonicalize pattern files).isSome = true := by
  unfold canonEdits at h
  rw [trees_plainOf, Located.mapAll_map, mapAll_isSome] at h
  unfold canonicalize
  rw [mapAll_isSome]
  intro f hfm
  have h1 := h f hfm
  obtain ⟨ev, hfrom⟩ := hf f hfm
  simp only at h1 ⊢
  split at h1
  · rename_i hn; rw [if_pos hn]; rfl
  · rename_i hn
    rw [if_neg hn]
    obtain ⟨rs, h2, h3⟩ := forTargets_isSome.1 h1
    rw [h2, Option.bind_some, mapAll_isSome]
    intro r hr
    have h4 := h3 r hr
    unfold canonRule
    have hn : r.plain.name = r.name.text := rfl
    rw [hn] at h4
    cases hq : f.1.qualifiedTarget r.name.text with
    | none => rfl
    | some self =>
      rw [hq] at h4
      simp only at h4 ⊢
      split at h4
      · rename_i hm; rw [if_pos hm]; rfl
      · rename_i hm
        rw [if_neg hm]
        rw [Option.isSome_map, show r.plain.deps = Located.plainRef r.deps from rfl, stringList_known] at h4
        obtain ⟨vs, hvs⟩ := Option.isSome_iff_exists.1 h4
        rw [hvs, Option.bind_some]
        refine each_known fun d hd => ?_
        obtain ⟨loc, hloc⟩ := from_locs hfrom (from_rules hfrom h2 r hr).deps hvs d (List.mem_filter.1 hd).1
        rw [hloc]; rfl

theorem genrules_known {m : Machine} {files : Holding}
    (hf : ∀ f ∈ files, ∃ evaluated, Located.From m evaluated f.1 f.2)
    (h : (genruleAdds (trees (Located.plainOf files))).isSome = true) :
    (genrules files).isSome = true := by
  unfold genruleAdds at h
  rw [trees_plainOf, Located.mapAll_map, mapAll_isSome] at h
  unfold genrules
  rw [Option.isSome_map, mapAll_isSome]
  intro f hfm
  have h1 := h f hfm
  obtain ⟨ev, hfrom⟩ := hf f hfm
  simp only at h1 ⊢
  split at h1
  · rename_i hn
    have : f.2.tree = .null := by
      cases ht : f.2.tree <;> rw [ht] at hn <;> first | rfl | cases hn
    rw [this]; rfl
  · obtain ⟨rs, h2, h3⟩ := forTargets_isSome.1 h1
    rw [h2, Option.bind_some, mapAll_isSome]
    intro r hr
    have h4 := h3 r hr
    unfold ruleOuts
    rw [show r.plain.name = r.name.text from rfl, show r.plain.outs = Located.plainRef r.outs from rfl] at h4
    cases hvs : Located.stringList r.outs with
    | none =>
      have : Query.stringList (Located.plainRef r.outs) = none := by
        rw [Located.stringList_plain, hvs]; rfl
      rw [this] at h4
      cases h4
    | some vs =>
      cases hq : f.1.qualifiedTarget r.name.text with
      | none => rfl
      | some target =>
        refine each_known fun d hd => ?_
        obtain ⟨loc, hloc⟩ := from_locs hfrom (from_rules hfrom h2 r hr).outs hvs d hd
        rw [hloc]; rfl

/-! ### `dwyu` -/

theorem visibleOf_canSee {gen : Dwyu.Generator} {target : BazelTarget} {ts vs : List BazelTarget}
    (h : Dwyu.visibleOf gen target ts = some vs) : ∀ t ∈ ts, ∃ b, Dwyu.canSee gen target t = some b := by
  induction ts generalizing vs with
  | nil => simp
  | cons t ts ih =>
    rw [Dwyu.visibleOf] at h
    cases hc : Dwyu.canSee gen target t with
    | none => rw [hc] at h; cases h
    | some b =>
      rw [hc] at h
      obtain ⟨vs', h1, _⟩ := Option.map_eq_some_iff.1 h
      intro x hx
      rcases List.mem_cons.1 hx with rfl | hx
      · exact ⟨b, hc⟩
      · exact ih h1 x hx

theorem maybeLog_known {talk : Dwyu.Talk} {gen : Dwyu.Generator} {target : BazelTarget} {loc inc : Str}
    {ts : List BazelTarget} (h : ∀ t ∈ ts, ∃ b, Dwyu.canSee gen target t = some b) :
    ∃ ms, Dwyu.maybeLog talk gen target loc inc ts = some ms := by
  unfold Dwyu.maybeLog
  split
  · exact ⟨_, rfl⟩
  · have : ∀ l : List BazelTarget, (∀ t ∈ l, ∃ b, Dwyu.canSee gen target t = some b) →
        ∃ ms, Dwyu.sayProviders talk gen target loc l = some ms := by
      intro l
      induction l with
      | nil => exact fun _ => ⟨_, rfl⟩
      | cons t l ih =>
        intro hl
        obtain ⟨b, hb⟩ := hl t (.head _)
        obtain ⟨ms, hm⟩ := ih fun x hx => hl x (.tail _ hx)
        exact ⟨_, by rw [Dwyu.sayProviders, hb, hm]⟩
    obtain ⟨ms, hm⟩ := this (Dwyu.inOrder ts) fun t ht => h t (Dwyu.mem_inOrder.1 ht)
    exact ⟨_, by rw [hm]; rfl⟩

theorem sayIncludes_known {talk : Dwyu.Talk} {gen : Dwyu.Generator} {made : List (Str × BazelTarget)}
    {target : BazelTarget} {pkg : BazelPackage} {sources : List Str} {isGenerated : Bool} {path content : Str}
    {index : LineMap} {incs : List (Nat × Str)} {r : List (List BazelTarget) × Bool}
    (hl : ∀ x ∈ incs, ∃ loc, Dwyu.sourceLoc path content index x = some loc)
    (h : Dwyu.neededByIncludes gen target pkg sources (incs.map (·.2)) = some r) :
    ∃ x, Dwyu.sayIncludes talk gen made target pkg sources isGenerated path content index incs = some x := by
  induction incs generalizing r with
  | nil => exact ⟨_, rfl⟩
  | cons inc incs ih =>
    rw [List.map_cons, Dwyu.neededByIncludes] at h
    cases hr : Dwyu.neededByIncludes gen target pkg sources (incs.map (·.2)) with
    | none => rw [hr] at h; cases h
    | some r' =>
      rw [hr] at h
      simp only at h
      obtain ⟨y, hy⟩ := ih (fun x hx => hl x (.tail _ hx)) hr
      obtain ⟨loc, hloc⟩ := hl inc (.head _)
      have : ∃ z, Dwyu.sayInclude talk gen made target pkg sources isGenerated loc inc.2 = some z := by
        unfold Dwyu.sayInclude
        split
        · exact ⟨_, rfl⟩
        · rename_i h1
          split
          · exact ⟨_, rfl⟩
          · rename_i h2
            rw [if_neg (by simp [h1, h2])] at h
            cases hp : Dwyu.providers gen pkg inc.2 with
            | none => rw [hp] at h; cases h
            | some o =>
              rw [hp] at h
              unfold Dwyu.providers at hp
              split
              · rename_i h3; rw [h3] at hp; cases hp
              · rename_i f h3
                rw [h3] at hp
                cases hp
                simp only at h
                cases hv : Dwyu.visibleOf gen target f.targets with
                | none => rw [hv] at h; cases h
                | some vs =>
                  obtain ⟨ms, hm⟩ := maybeLog_known (talk := talk) (loc := loc) (inc := inc.2) (visibleOf_canSee hv)
                  exact ⟨_, by rw [hm]; rfl⟩
              · rename_i h3
                rw [h3] at hp
                simp only at hp
                split
                · rename_i h4; rw [h4] at hp; cases hp
                · rename_i f h4
                  rw [h4] at hp
                  cases hp
                  simp only at h
                  cases hv : Dwyu.visibleOf gen target f.targets with
                  | none => rw [hv] at h; cases h
                  | some vs =>
                    obtain ⟨ms, hm⟩ := maybeLog_known (talk := talk) (loc := loc) (inc := inc.2) (visibleOf_canSee hv)
                    exact ⟨_, by rw [hm]; rfl⟩
                · split <;> exact ⟨_, rfl⟩
      obtain ⟨⟨z, b⟩, hz⟩ := this
      exact ⟨_, by rw [Dwyu.sayIncludes, hloc]; simp only [hz, hy]; rfl⟩

theorem tryOpen_open (read : Str → Option Str) (file : Str) :
    Dwyu.tryOpenFile read file = (Dwyu.openFile read file).map (·.2.1) := by
  unfold Dwyu.tryOpenFile Dwyu.openFile
  induction Dwyu.sourceLocations with
  | nil => rfl
  | cons d ds ih =>
    rw [List.findSome?_cons, List.findSome?_cons, ih]
    cases read (d ++ file) <;> rfl

theorem saySources_known {talk : Dwyu.Talk} {env : Dwyu.Env} {gen : Dwyu.Generator} {made : List (Str × BazelTarget)}
    {target : BazelTarget} {details : Query.Result} {pkg : BazelPackage} {sources l : List Str} (n : Nat)
    {r : List (List BazelTarget) × Bool} (h : Dwyu.neededBySources env gen target pkg sources l = some r) :
    ∃ ms, Dwyu.saySources talk env gen made target details pkg sources n l = some ms := by
  induction l generalizing r n with
  | nil => exact ⟨_, rfl⟩
  | cons src l ih =>
    rw [Dwyu.neededBySources] at h
    cases hr : Dwyu.neededBySources env gen target pkg sources l with
    | none => rw [hr] at h; cases h
    | some r' =>
      rw [hr] at h
      obtain ⟨ms, hm⟩ := ih (n + 1) hr
      rw [Dwyu.saySources]
      simp only [hm]
      simp only [tryOpen_open] at h
      cases ho : Dwyu.openFile env.read (pkg.fullyQualifiedFile env.workspace src) with
      | none => exact ⟨_, rfl⟩
      | some x =>
        obtain ⟨path, content, isGenerated⟩ := x
        rw [ho] at h
        simp only [Option.map_some] at h
        obtain ⟨index, h1, h2⟩ := Dwyu.sourceLoc_eq (path := path) (content := content) rfl
        cases hi : Dwyu.neededByIncludes gen target pkg sources ((Includes.extract content).map (·.2)) with
        | none => rw [hi] at h; cases h
        | some y =>
          obtain ⟨z, hz⟩ := sayIncludes_known (talk := talk) (made := made) (isGenerated := isGenerated)
            (fun x hx => ⟨_, h2 x hx⟩) hi
          exact ⟨_, by simp only [h1, hz, Option.map_some]; rfl⟩

theorem sayNeeded_known {talk : Dwyu.Talk} {gen : Dwyu.Generator} {target : BazelTarget} {details : Query.Result}
    {l : List (List BazelTarget)} {es : List Edit} (h : Dwyu.addNeeded gen target l = some es) :
    ∃ ms, Dwyu.sayNeeded talk gen target details l = some ms := by
  induction l generalizing es with
  | nil => exact ⟨_, rfl⟩
  | cons s l ih =>
    rw [Dwyu.addNeeded] at h
    cases hr : Dwyu.addNeeded gen target l with
    | none => rw [hr] at h; cases h
    | some es' =>
      rw [hr] at h
      obtain ⟨ms, hm⟩ := ih hr
      rw [Dwyu.sayNeeded, hm]
      match s, h with
      | [], h => cases h
      | [t], h =>
        simp only at h ⊢
        cases hc : Dwyu.canSee gen target t with
        | none => rw [hc] at h; cases h
        | some b => exact ⟨_, rfl⟩
      | _ :: _ :: _, _ => exact ⟨_, rfl⟩

theorem sayForTarget_known {talk : Dwyu.Talk} {env : Dwyu.Env} {gen : Dwyu.Generator} {made : List (Str × BazelTarget)}
    {target : BazelTarget} {details : Query.Result} {pkg : BazelPackage} {es : List Edit}
    (h : Dwyu.createEditsForTarget env gen target details pkg = some es) :
    ∃ ms, Dwyu.sayForTarget talk env gen made target details pkg = some ms := by
  unfold Dwyu.createEditsForTarget at h
  unfold Dwyu.sayForTarget
  split at h
  · rename_i srcs hdrs deps h1 h2 h3
    simp only at h
    rw [h1, h2, h3]
    simp only
    cases hn : Dwyu.neededBySources env gen target pkg (srcs ++ hdrs) (srcs ++ hdrs) with
    | none => rw [hn] at h; cases h
    | some x =>
      obtain ⟨sets, accounted⟩ := x
      rw [hn] at h
      obtain ⟨ms, hm⟩ := saySources_known (talk := talk) (made := made) (details := details) 0 hn
      rw [hm]
      simp only at h ⊢
      cases hd : Dwyu.minimizeDependencySet sets with
      | none => rw [hd] at h; cases h
      | some needed =>
        rw [hd] at h
        obtain ⟨es', he, _⟩ := Option.map_eq_some_iff.1 h
        obtain ⟨last, hl⟩ := sayNeeded_known (talk := talk) (details := details) he
        exact ⟨_, by simp only [hl]; rfl⟩
  · cases h

theorem rulePlaces_known {m : Machine} {evaluated : Bool} {pkg : BazelPackage} {f : Held} (hf : Located.From m evaluated pkg f)
    {kinds : List Str} {rs : List Rule} (h : Located.findTargets false f.tree kinds = some rs) {r : Rule} (hr : r ∈ rs)
    (hsrcs : (Query.stringList r.plain.srcs).isSome) (hhdrs : (Query.stringList r.plain.hdrs).isSome)
    (hdeps : (Query.stringList r.plain.deps).isSome) (files : Holding) :
    ∃ places, rulePlaces files f.source r = some places := by
  have hall := from_rules hf h r hr
  have key : ∀ l : Option Located.ListRef, (Query.stringList (Located.plainRef l)).isSome →
      Located.RefAll (Fine f.source.content) (RangeIn f.source.content) (InFile f.source.content) l →
      ∃ locs, (Located.stringList l).bind (each f.source.loc) = some locs := by
    intro l hl ha
    rw [stringList_known] at hl
    obtain ⟨vs, hvs⟩ := Option.isSome_iff_exists.1 hl
    obtain ⟨locs, hlocs⟩ := each_some (from_locs hf ha hvs)
    exact ⟨locs, by rw [hvs]; exact hlocs⟩
  obtain ⟨srcs, h1⟩ := key _ hsrcs hall.srcs
  obtain ⟨hdrs, h2⟩ := key _ hhdrs hall.hdrs
  obtain ⟨deps, h3⟩ := key _ hdeps hall.deps
  obtain ⟨name, h4⟩ := hf.loc (hall.name (findTargets_named h rfl r hr))
  exact ⟨_, by unfold rulePlaces; rw [h1, h2, h3, h4]⟩

theorem dwyu_known {m : Machine} {flags : Flags} {ws : Workspace.Map} {pattern : BazelPattern} {files : Holding}
    (hf : ∀ f ∈ files, ∃ evaluated, Located.From m evaluated f.1 f.2) {es : List Edit}
    (h : Located.dependencyEdits m flags ws pattern files = some es) : ∃ ms, dwyu m flags ws pattern files = some ms := by
  have h0 := h
  unfold Located.dependencyEdits at h
  obtain ⟨gen, hg, h⟩ := Option.bind_eq_some_iff.1 h
  unfold dwyu
  have hmade : ∃ made, extractGeneratedFromGenrule (trees (Located.plainOf files)) = some made := by
    unfold Dwyu.Generator.create at hg
    cases he : extractGeneratedFromGenrule (trees (Located.plainOf files)) with
    | none =>
      rw [he] at hg
      split at hg
      · rename_i h2 _; cases h2
      · cases hg
    | some made => exact ⟨made, rfl⟩
  obtain ⟨made, hmade⟩ := hmade
  have hfirst : (genrules files).isSome := genrules_known hf (by
    unfold extractGeneratedFromGenrule at hmade
    obtain ⟨x, hx, _⟩ := Option.map_eq_some_iff.1 hmade
    rw [hx]; rfl)
  obtain ⟨first, hfirst⟩ := Option.isSome_iff_exists.1 hfirst
  have hsay : (mapAll (fun f : BazelPackage × Held =>
      if !pattern.matchPackage f.1 then some []
      else
        (Located.findTargets false f.2.tree [c!"cc_library", c!"cc_binary", c!"cc_test"]).bind fun rs =>
          mapAll (dwyuRule m flags ws gen made pattern files f.1 f.2.source) rs) files).isSome := by
    rw [mapAll_isSome]
    intro f hfm
    have h1 := mapAll_isSome.1 (Option.isSome_iff_exists.2 ⟨_, h⟩) f hfm
    obtain ⟨ev, hfrom⟩ := hf f hfm
    unfold Located.editsForFile at h1
    split
    · rfl
    · rename_i hp
      rw [if_neg hp] at h1
      cases hr : Located.findTargets false f.2.tree [c!"cc_library", c!"cc_binary", c!"cc_test"] with
      | none => rw [hr] at h1; cases h1
      | some rs =>
        rw [hr, Option.bind_some, mapAll_isSome] at h1
        rw [Option.bind_some, mapAll_isSome]
        intro r hrm
        have h2 := h1 r hrm
        unfold Located.editsForRule at h2
        unfold dwyuRule
        cases hq : f.1.qualifiedTarget r.name.text with
        | none => rfl
        | some target =>
          rw [hq] at h2
          simp only at h2 ⊢
          split
          · rfl
          · rename_i hm
            rw [if_neg hm] at h2
            cases hl : Located.depLines f.2.source r with
            | none => rw [hl] at h2; cases h2
            | some lines =>
              rw [hl, Option.bind_some] at h2
              obtain ⟨es, he⟩ := Option.isSome_iff_exists.1 h2
              have hs : (Query.stringList r.plain.srcs).isSome ∧ (Query.stringList r.plain.hdrs).isSome ∧
                  (Query.stringList r.plain.deps).isSome := by
                unfold Dwyu.createEditsForTarget at he
                split at he
                · rename_i a b c; rw [a, b, c]; exact ⟨rfl, rfl, rfl⟩
                · cases he
              obtain ⟨places, hpl⟩ := rulePlaces_known hfrom hr hrm hs.1 hs.2.1 hs.2.2 files
              obtain ⟨ms, hms⟩ := sayForTarget_known (talk := ⟨flags.verbose, m.color, places⟩) (made := made) he
              rw [hpl]
              simp only [hms]
              rfl
  obtain ⟨said, hsaid⟩ := Option.isSome_iff_exists.1 hsay
  exact ⟨_, by simp only [hg, hmade, hfirst, hsaid, h0]; rfl⟩

/-! ### Running commands -/

theorem perform_known {m : Machine} {regexError : Str → Str} {flags : Flags} {cmd : Command} {pattern : BazelPattern}
    {p : Located.Ready} (hf : AllFrom m flags cmd p.files) {r : Commands.Result}
    (h : Located.perform m flags cmd pattern p = some r) :
    ∃ said, perform m regexError flags cmd pattern p.workspace p.files = some said := by
  cases cmd <;> try exact ⟨_, rfl⟩
  · obtain ⟨rows, h1, _⟩ := Option.bind_eq_some_iff.1 h
    obtain ⟨g, h2, _⟩ := Option.map_eq_some_iff.1 h1
    obtain ⟨x, h3, _⟩ := Option.map_eq_some_iff.1 h2
    obtain ⟨ms, hms⟩ := Option.isSome_iff_exists.1 (genrules_known hf.each (Option.isSome_iff_exists.2 ⟨x, h3⟩))
    exact ⟨_, by rw [perform, hms]; rfl⟩
  · obtain ⟨es, h1, _⟩ := Option.map_eq_some_iff.1 h
    obtain ⟨ms, hms⟩ := dwyu_known hf.each h1
    exact ⟨_, by rw [perform, hms]; rfl⟩
  · obtain ⟨es, h1, _⟩ := Option.map_eq_some_iff.1 h
    obtain ⟨ms, hms⟩ := Option.isSome_iff_exists.1 (canonicalize_known (pattern := pattern) hf.each
      (Option.isSome_iff_exists.2 ⟨es, h1⟩))
    exact ⟨_, by rw [perform, hms]; rfl⟩

/-- The parts of a run. -/
theorem runCommand_parts {m : Machine} {regexError : Str → Str} {flags : Flags} {cmd : Command} {pattern : BazelPattern}
    {ran : Ran} (h : Located.runCommand m flags cmd pattern = some ran) :
    ∃ first, workspace m.fs = some first ∧
      ((Workspace.load m.fs = some none ∧ ran.status = 1 ∧ ran.out = [] ∧
        runCommand m regexError flags cmd pattern = some ⟨1, [], first ++ [.session noWorkspace]⟩) ∨
      ∃ ws o msg now g a b c, workspaceOf m = some ws ∧
        Located.opened m ws flags cmd pattern = some (o, msg) ∧
        Located.follow m ws flags cmd pattern o = some (now, g) ∧ AllFrom m flags cmd now ∧
        fill m ws cmd pattern = some a ∧ graph m ws flags cmd pattern (trees (Located.plainOf o)) = some b ∧
        perform m regexError flags cmd pattern ws now = some c ∧
        Located.perform m flags cmd pattern ⟨ws, now, g, msg⟩ = some (ran.status, ran.out) ∧
        runCommand m regexError flags cmd pattern = some ⟨ran.status, ran.out, first ++ a ++ b ++ c⟩) := by
  have hplain := Located.prepare_plain m flags cmd pattern
  unfold Located.runCommand at h
  unfold runCommand
  unfold Located.prepare at h hplain ⊢
  have hload : Workspace.load m.fs ≠ none := by
    intro h0; rw [h0] at h; cases h
  obtain ⟨first, hfirst⟩ := workspace_known hload
  refine ⟨first, hfirst, ?_⟩
  rw [hfirst]
  cases hl : Workspace.load m.fs with
  | none => exact absurd hl hload
  | some o =>
    cases o with
    | none =>
      rw [hl] at h
      cases h
      exact .inl ⟨rfl, rfl, rfl, rfl⟩
    | some ws0 =>
      rw [hl] at h hplain
      simp only at h hplain ⊢
      refine .inr ⟨(Workspace.augment m.fs ws0).2, ?_⟩
      cases hp : Located.prepareIn m (Workspace.augment m.fs ws0).2 flags cmd pattern with
      | none => rw [hp] at h; cases h
      | some p =>
        rw [hp] at h hplain
        simp only [Option.map_some] at h hplain
        obtain ⟨⟨status, out⟩, h1, rfl⟩ := Option.map_eq_some_iff.1 h
        rcases hplain with ⟨h2, _⟩ | ⟨h2, _⟩ | ⟨p', h2, _, hall⟩
        · cases h2
        · cases h2
        · cases h2
          have hp0 := hp
          unfold Located.prepareIn at hp
          obtain ⟨⟨o, msg⟩, h3, h4⟩ := Option.bind_eq_some_iff.1 hp
          obtain ⟨⟨now, g⟩, h5, rfl⟩ := Option.map_eq_some_iff.1 h4
          have hfill : ∃ r, Located.fill m (Workspace.augment m.fs ws0).2 cmd pattern = some r := by
            unfold Located.opened at h3
            obtain ⟨r, h6, _⟩ := Option.bind_eq_some_iff.1 h3
            exact ⟨r, h6⟩
          obtain ⟨r, hfill⟩ := hfill
          obtain ⟨a, ha⟩ := fill_known hfill
          obtain ⟨b, hb⟩ := graph_known h5
          obtain ⟨c, hc⟩ := perform_known (regexError := regexError) hall h1
          refine ⟨o, msg, now, g, a, b, c, ?_, h3, h5, hall, ha, hb, hc, h1, ?_⟩
          · simp [CommandSpec.workspaceOf, hl]
          · simp only [Option.map_some]
            simp only at ha hb hc h1 h3
            rw [ha, h3]
            simp only [Option.bind_some]
            rw [hb, hc, h1]

end Stderr
end Bant
