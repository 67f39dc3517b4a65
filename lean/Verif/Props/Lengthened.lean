import Verif.Props.CommandEdits
import Verif.Spec.Lengthened
import Verif.Lemmas.Elsewhere
import Verif.Lemmas.LayoutCommand
import Verif.Props.Appended
import Verif.Props.Evaluated
import Verif.Props.Reordered

/-! Appending rules to BUILD files only adds to what commands print (C142). -/
namespace Bant
namespace Props
open Commands hiding Result
open CommandSpec Cli Query Rules Headers GraphSpec Table

/-! ### Trees -/

/-- The rules of each kind, and others after them; also with calls without name. -/
def MoreRules (t t' : Node) : Prop :=
  ∀ kinds unnamed, ∃ more, report kwArgsIn kinds unnamed none (sites t') = report kwArgsIn kinds unnamed none (sites t) ++ more

theorem MoreRules.rules {t t' : Node} (h : MoreRules t t') (kinds : List Str) :
    ∃ more, rulesOf kinds t' = rulesOf kinds t ++ more := h kinds false

theorem moreRules_refl (t : Node) : MoreRules t t := fun _ _ => ⟨[], by simp⟩

theorem moreRules_append (xs ys : List Node) : MoreRules (.list .list xs) (.list .list (xs ++ ys)) := by
  intro kinds unnamed
  obtain ⟨vis, h, _⟩ := report_append kwArgsIn kinds unnamed (sitesIn xs) (sitesIn ys) none
  refine ⟨report kwArgsIn kinds unnamed vis (sitesIn ys), ?_⟩
  simp only [sites, RulesSpec.sitesIn_append, h]

theorem walks_append_some (glob : Elab.GlobFn) (nest : Nat) : ∀ (xs ys : List Node) (vars : Elab.Vars) zs v,
    Elab.walks glob nest vars (xs ++ ys) = some (zs, v) →
    ∃ xs' v' ys', Elab.walks glob nest vars xs = some (xs', v') ∧ zs = xs' ++ ys'
  | [], ys, vars, zs, v, _ => ⟨[], vars, zs, by simp [Elab.walks], by simp⟩
  | x :: xs, ys, vars, zs, v, h => by
    rw [List.cons_append, Elab.walks] at h
    rw [Elab.walks]
    split at h
    · cases h
    · next x' v1 h1 =>
      split at h
      · cases h
      · next xs1 v2 h2 =>
        cases h
        obtain ⟨xs', v', ys', h3, h4⟩ := walks_append_some glob nest xs ys v1 xs1 _ h2
        exact ⟨x' :: xs', v', ys', by simp only [h1, h3], by rw [h4]; rfl⟩

theorem elabFile_append {glob : Elab.GlobFn} {xs ys : List Node} {u u' : Node}
    (h : Elab.elabFile glob (.list .list xs) = some u) (h' : Elab.elabFile glob (.list .list (xs ++ ys)) = some u') :
    MoreRules u u' := by
  unfold Elab.elabFile at h h'
  simp only [Elab.walk] at h h'
  cases h1 : Elab.walks glob 0 [] (xs ++ ys) with
  | none => rw [h1] at h'; cases h'
  | some r =>
    obtain ⟨zs, v⟩ := r
    obtain ⟨xs', v', ys', h2, h3⟩ := walks_append_some glob 0 xs ys [] zs v h1
    rw [h1] at h'
    rw [h2] at h
    simp only [Option.map_some, Option.some.injEq] at h h'
    subst h h' h3
    exact moreRules_append xs' ys'

/-! ### Machines -/

section
variable {m m' : Machine}

theorem _root_.Bant.CommandSpec.Lengthened.glob (h : Lengthened m m') : m'.glob = m.glob := by rw [h.rest]

theorem _root_.Bant.CommandSpec.Lengthened.fs (h : Lengthened m m') : m'.fs = { m.fs with content := m'.fs.content } :=
  congrArg Machine.fs h.rest

theorem _root_.Bant.CommandSpec.Lengthened.others (h : Lengthened m m') {name : Str} (hn : ¬ IsBuild name) :
    m'.fs.content name = m.fs.content name := by
  cases h1 : m.fs.content name with
  | none => exact (h.missing name).2 h1
  | some c =>
    cases h2 : m'.fs.content name with
    | none => rw [(h.missing name).1 h2] at h1; cases h1
    | some c' =>
      rcases h.files name c c' h1 h2 with rfl | h3
      · rfl
      · exact absurd h3.1 hn

theorem _root_.Bant.CommandSpec.Lengthened.workspaceOf (h : Lengthened m m') : workspaceOf m' = workspaceOf m := by
  have hfs := h.fs
  have hstep : ∀ name ∈ Workspace.wsFiles, ∀ r, Workspace.loadFile m'.fs r name = Workspace.loadFile m.fs r name := by
    intro name hn r
    unfold Workspace.loadFile
    rw [h.others (Elsewhere.wsFile_notBuild hn)]
    rw [hfs]
    rfl
  have hfold : ∀ (l : List Str) (r : Bool × Workspace.Map), (∀ n ∈ l, n ∈ Workspace.wsFiles) →
      l.foldlM (Workspace.loadFile m'.fs) r = l.foldlM (Workspace.loadFile m.fs) r := by
    intro l
    induction l with
    | nil => intro r _; rfl
    | cons n l ih =>
      intro r hl
      rw [List.foldlM_cons, List.foldlM_cons, hstep n (hl n (by simp))]
      congr 1
      funext r'
      exact ih r' fun x hx => hl x (by simp [hx])
  have haug : ∀ ws, Workspace.augment m'.fs ws = Workspace.augment m.fs ws := by
    intro ws; rw [hfs]; rfl
  unfold CommandSpec.workspaceOf Workspace.load
  rw [hfold _ _ fun n hn => hn]
  simp only [haug]

theorem _root_.Bant.CommandSpec.Lengthened.readable (h : Lengthened m m') (ws : Workspace.Map) (project : Str) (pkg : BazelPackage) :
    ∀ found : List Str,
      (firstReadable m ws project pkg found = none ∧ firstReadable m' ws project pkg found = none) ∨
      ∃ name c c', firstReadable m ws project pkg found = some (name, c) ∧
        firstReadable m' ws project pkg found = some (name, c')
  | [] => .inl ⟨rfl, rfl⟩
  | f :: found => by
    have ih := h.readable ws project pkg found
    rw [firstReadable, firstReadable]
    split
    · cases h1 : m.fs.content f with
      | none => rw [(h.missing f).2 h1]; exact ih
      | some c =>
        cases h2 : m'.fs.content f with
        | none => rw [(h.missing f).1 h2] at h1; cases h1
        | some c' => exact .inr ⟨f, c, c', rfl, rfl⟩
    · exact ih

/-- What is read from a file. -/
theorem _root_.Bant.CommandSpec.Lengthened.read (h : Lengthened m m') (hh' : Healthy m') {name c c' : Str}
    (h1 : m.fs.content name = some c) (h2 : m'.fs.content name = some c') (hb : IsBuild name) {t : Node}
    {st : Parser.PState} (ht : Parser.parseFile c = some (t, st)) :
    ∃ t' st', Parser.parseFile c' = some (t', st') ∧ MoreRules t t' ∧
      ∀ glob u, Elab.elabFile glob t = some u → ∃ u', Elab.elabFile glob t' = some u' ∧ MoreRules u u' := by
  obtain ⟨t', st', h3, _, h4⟩ := hh'.usable name c' hb h2
  refine ⟨t', st', h3, ?_⟩
  rcases h.files name c c' h1 h2 with rfl | ⟨_, ⟨tree, st0, h5, h6⟩, b, rfl, h7⟩
  · rw [ht] at h3
    cases h3
    exact ⟨moreRules_refl _, fun glob u hu => ⟨u, hu, moreRules_refl _⟩⟩
  · rw [ht] at h5
    cases h5
    obtain ⟨xs, ys, st2, st3, rfl, _, h9, _⟩ := C138_appended ht h6 h7
    rw [h3] at h9
    cases h9
    refine ⟨moreRules_append xs ys, fun glob u hu => ?_⟩
    obtain ⟨u', h10, _⟩ := h4 glob
    exact ⟨u', h10, elabFile_append hu h10⟩

/-- A package that is loaded later. -/
theorem _root_.Bant.CommandSpec.Lengthened.load (h : Lengthened m m') (hh' : Healthy m') {ws : Workspace.Map} {pkg : BazelPackage} {ast : Node}
    (hl : DepGraph.load (world m ws) pkg = some (some ast)) :
    ∃ ast', DepGraph.load (world m' ws) pkg = some (some ast') ∧ MoreRules ast ast' := by
  have hp : DepGraph.pathForPackage (world m' ws) pkg = DepGraph.pathForPackage (world m ws) pkg := by
    unfold DepGraph.pathForPackage world
    rw [h.fs]
  unfold DepGraph.load at hl ⊢
  rw [hp]
  cases h1 : DepGraph.pathForPackage (world m ws) pkg with
  | none => rw [h1] at hl; simp at hl
  | some path =>
    rw [h1] at hl
    simp only [world] at hl ⊢
    cases h2 : m.fs.content path with
    | none => rw [h2] at hl; cases hl
    | some c =>
      cases h3 : m'.fs.content path with
      | none => rw [(h.missing path).1 h3] at h2; cases h2
      | some c' =>
        simp only [h2] at hl
        cases h4 : Parser.parseFile c with
        | none => rw [h4] at hl; cases hl
        | some r =>
          obtain ⟨t, st⟩ := r
          simp only [h4] at hl
          obtain ⟨u, h5, h6⟩ := Option.map_eq_some_iff.1 hl
          cases h6
          obtain ⟨t', st', h7, _, h8⟩ := h.read hh' h2 h3 (Layout.path_build h1) h4
          obtain ⟨u', h9, h10⟩ := h8 _ _ h5
          exact ⟨u', by simp only [h7, h.glob, h9, Option.map_some], h10⟩

end

/-- Loaded files, with more rules. -/
structure MoreFiles (files files' : Loaded) : Prop where
  there : ∀ pkg file, (pkg, file) ∈ files → ∃ file', (pkg, file') ∈ files' ∧ file'.name = file.name ∧
    MoreRules file.ast file'.ast
  other : ∀ pkg, pkg ∈ files'.map (·.1) → pkg ∈ files.map (·.1)

/-- **C142**: the same files are opened, and have the rules that they had before, and then others. -/
theorem C142_files {m m' : Machine} (h : Lengthened m m') (hh : Healthy m) (hh' : Healthy m') {flags : Flags} {cmd : Command}
    {pattern : BazelPattern} {ws : Workspace.Map} {found : List Str} {files : Loaded}
    (hs : Starts m flags cmd pattern ws found files) (hneed : needsProject cmd pattern = true) :
    ∃ files', Starts m' flags cmd pattern ws found files' ∧ MoreFiles files files' := by
  have hc : Collect.collectBuildFiles m'.tree m'.symlink ws (searched cmd pattern) m'.steps = some found := by
    rw [h.rest]; exact hs.opened.files
  obtain ⟨files', h1, _⟩ := C85_opened hh' (h.workspaceOf.trans hs.workspace) hs.roots flags cmd pattern hc hneed
  refine ⟨files', h1, fun pkg file hm => ?_, fun pkg hm => ?_⟩
  · obtain ⟨name, c, h2, t, st, h3, h4, h5, h6⟩ := (hs.opened.each pkg file).1 hm
    rcases h.readable ws (searched cmd pattern).pattern.package.project pkg found with ⟨a, _⟩ | ⟨name', c1, c', a, b⟩
    · rw [h2] at a; cases a
    · rw [h2] at a
      cases a
      obtain ⟨h7, h8, _⟩ := firstReadable_mem h2
      obtain ⟨_, h9, _⟩ := firstReadable_mem b
      obtain ⟨t', st', h10, h11, h12⟩ := h.read hh' h8 h9 (found_build hs.opened.files name h7) h3
      cases he : evaluates flags cmd with
      | false =>
        simp only [he, Bool.false_eq_true, if_false] at h6
        refine ⟨⟨name, t', decide (st'.errs ≠ [])⟩, (h1.opened.each _ _).2 ⟨name, c', b, t', st', h10, rfl, by simp, ?_⟩,
          h4.symm, by rw [h6]; exact h11⟩
        simp [he]
      | true =>
        simp only [he, if_true] at h6
        obtain ⟨u', h13, h14⟩ := h12 _ _ h6
        refine ⟨⟨name, u', decide (st'.errs ≠ [])⟩, (h1.opened.each _ _).2 ⟨name, c', b, t', st', h10, rfl, by simp, ?_⟩,
          h4.symm, h14⟩
        simp only [he, if_true, h.glob]
        exact h13
  · obtain ⟨⟨_, file'⟩, hm', rfl⟩ := List.mem_map.1 hm
    obtain ⟨name, c', h2, _⟩ := (h1.opened.each _ _).1 hm'
    rcases h.readable ws (searched cmd pattern).pattern.package.project _ found with ⟨_, a⟩ | ⟨name', c, c1, a, b⟩
    · rw [h2] at a; cases a
    · obtain ⟨h3, h4, _⟩ := firstReadable_mem a
      obtain ⟨t, st, h5, _, h6⟩ := hh.usable name' c (found_build hs.opened.files name' h3) h4
      obtain ⟨u, h7, _⟩ := h6 (m.glob _)
      refine List.mem_map.2 ⟨(_, ⟨name', if evaluates flags cmd then u else t, decide (st.errs ≠ [])⟩),
        (hs.opened.each _ _).2 ⟨name', c, a, t, st, h5, rfl, by simp, ?_⟩, rfl⟩
      split
      · exact h7
      · rfl

/-! ### Targets that are reached -/

section
variable {m m' : Machine} {ws : Workspace.Map} {pattern : BazelPattern} {files files' : Loaded}
  (h : Lengthened m m') (hh' : Healthy m') (hn' : (files'.map (·.1)).Nodup) (hf : MoreFiles files files')

theorem moreRules_mem {t t' : Node} (h : MoreRules t t') {kinds : List Str} {r : Result} (hr : r ∈ rulesOf kinds t) :
    r ∈ rulesOf kinds t' := by
  obtain ⟨more, e⟩ := h.rules kinds
  rw [e]
  exact List.mem_append_left _ hr

include hf in
theorem root_more {t : BazelTarget} (h : Root pattern (trees files) t) : Root pattern (trees files') t := by
  obtain ⟨f, h0, r, hr, h1, h2⟩ := h
  obtain ⟨file, h3, h4⟩ := mem_trees.1 h0
  obtain ⟨file', h5, _, h6⟩ := hf.there _ _ h3
  rw [← h4] at hr
  exact ⟨(f.1, file'.ast), mem_trees.2 ⟨file', h5, rfl⟩, r, moreRules_mem h6 hr, h1, h2⟩

include h hh' hn' hf

theorem treeOf_more {pkg : BazelPackage} {ast : Node} (ht : GraphSpec.treeOf (world m ws) (trees files) pkg = some ast) :
    ∃ ast', GraphSpec.treeOf (world m' ws) (trees files') pkg = some ast' ∧ MoreRules ast ast' := by
  unfold GraphSpec.treeOf at ht ⊢
  cases hl : lookup (trees files) pkg with
  | none =>
    have hl' : lookup (trees files') pkg = none := by
      rw [lookup_none, trees_keys] at hl ⊢
      exact fun hm => hl (hf.other _ hm)
    rw [hl] at ht
    rw [hl']
    simp only at ht ⊢
    split at ht
    · next a ha =>
      cases ht
      obtain ⟨ast', h1, h2⟩ := h.load hh' ha
      exact ⟨ast', by rw [h1], h2⟩
    · cases ht
  | some a =>
    rw [hl] at ht
    cases ht
    obtain ⟨file, h1, h2⟩ := mem_trees.1 (lookup_mem hl)
    obtain ⟨file', h3, _, h4⟩ := hf.there _ _ h1
    simp only at h1 h2 h3 h4
    have : lookup (trees files') pkg = some file'.ast :=
      (mem_lookup (by rw [trees_keys]; exact hn')).1 (mem_trees.2 ⟨file', h3, rfl⟩)
    exact ⟨file'.ast, by rw [this], h2 ▸ h4⟩

theorem defines_more {t : BazelTarget} {r : Result} (hd : Defines (world m ws) (trees files) t r) :
    Defines (world m' ws) (trees files') t r := by
  obtain ⟨ast, before, after, h1, h2, h3, h4⟩ := hd
  obtain ⟨ast', h5, h6⟩ := treeOf_more h hh' hn' hf h1
  obtain ⟨more, e⟩ := h6.rules []
  exact ⟨ast', before, after ++ more, h5, by rw [e, h2]; simp, h3, h4⟩

theorem edge_more {t u : BazelTarget} (he : Edge (world m ws) (trees files) t u) :
    Edge (world m' ws) (trees files') t u := by
  obtain ⟨r, h1, h2⟩ := he
  exact ⟨r, defines_more h hh' hn' hf h1, h2⟩

theorem reached_more {n : Nat} {t : BazelTarget} (hr : Reached m ws pattern n files t) :
    Reached m' ws pattern n files' t := by
  obtain ⟨k, h1, h2⟩ := hr
  refine ⟨k, h1, ?_⟩
  clear h1
  induction h2 with
  | root hr => exact .root (root_more hf hr)
  | step _ he ih => exact .step ih (edge_more h hh' hn' hf he)

theorem grown_more {n : Nat} {now now' : Files} (hg : Grown m ws pattern n files now)
    (hg' : Grown m' ws pattern n files' now') {pkg : BazelPackage} {ast : Node} (hm : (pkg, ast) ∈ now) :
    ∃ ast', (pkg, ast') ∈ now' ∧ MoreRules ast ast' := by
  rcases (hg.each pkg ast).1 hm with h1 | ⟨h1, h2, t, h3, h4⟩
  · obtain ⟨file, h2, h3⟩ := mem_trees.1 h1
    obtain ⟨file', h4, _, h5⟩ := hf.there _ _ h2
    simp only at h2 h3 h4 h5
    exact ⟨file'.ast, (hg'.each _ _).2 (.inl (mem_trees.2 ⟨file', h4, rfl⟩)), h3 ▸ h5⟩
  · obtain ⟨ast', h5, h6⟩ := h.load hh' h2
    exact ⟨ast', (hg'.each _ _).2 (.inr ⟨fun hc => h1 (hf.other _ hc), h5, t, reached_more h hh' hn' hf h3, h4⟩), h6⟩

end

/-- What is made of files one after the other, if there is more in each of them. -/
theorem flatMap_more {α β γ : Type} (f : α × β → List γ) : ∀ {l l' : List (α × β)}, l'.map (·.1) = l.map (·.1) →
    (l.map (·.1)).Nodup →
    (∀ a b, (a, b) ∈ l → ∃ b', (a, b') ∈ l' ∧ (f (a, b)).Sublist (f (a, b'))) → (l.flatMap f).Sublist (l'.flatMap f)
  | [], [], _, _, _ => .slnil
  | [], _ :: _, h, _, _ => by cases h
  | _ :: _, [], h, _, _ => by cases h
  | (a, b) :: l, (a', b') :: l', h, hn, hm => by
    obtain ⟨h0, hk⟩ := List.cons.inj (show a' :: l'.map (·.1) = a :: l.map (·.1) from h)
    subst h0
    obtain ⟨hna, hn⟩ := List.nodup_cons.1 (show (a' :: l.map (·.1)).Nodup from hn)
    rw [List.flatMap_cons, List.flatMap_cons]
    refine List.Sublist.append ?_ (flatMap_more f hk hn fun x y hx => ?_)
    · obtain ⟨c, hc, hsub⟩ := hm a' b (.head _)
      rcases List.mem_cons.1 hc with hc | hc
      · cases hc; exact hsub
      · exact absurd (hk ▸ List.mem_map.2 ⟨_, hc, rfl⟩) hna
    · obtain ⟨c, hc, hsub⟩ := hm x y (.tail _ hx)
      rcases List.mem_cons.1 hc with hc | hc
      · cases hc; exact absurd (List.mem_map.2 ⟨_, hx, rfl⟩) hna
      · exact ⟨c, hc, hsub⟩

theorem moreFiles_keys {m m' : Machine} {flags flags' : Flags} {cmd cmd' : Command} {pattern pattern' : BazelPattern}
    {ws : Workspace.Map} {found found' : List Str} {files files' : Loaded} (hs : Starts m flags cmd pattern ws found files)
    (hs' : Starts m' flags' cmd' pattern' ws found' files') (hf : MoreFiles files files') :
    files'.map (·.1) = files.map (·.1) := by
  have e := sorted_ext (l := files'.map fun f => (f.1, ())) (l' := files.map fun f => (f.1, ()))
    (by rw [List.map_map]; exact hs'.opened.order) (by rw [List.map_map]; exact hs.opened.order) (by
      rintro ⟨pkg, ⟨⟩⟩
      constructor
      · intro hm
        obtain ⟨⟨_, file⟩, h1, h2⟩ := List.mem_map.1 hm
        cases h2
        obtain ⟨f, h3, h4⟩ := List.mem_map.1 (hf.other _ (List.mem_map.2 ⟨_, h1, rfl⟩))
        exact List.mem_map.2 ⟨f, h3, by rw [h4]⟩
      · intro hm
        obtain ⟨⟨_, file⟩, h1, h2⟩ := List.mem_map.1 hm
        cases h2
        obtain ⟨file', h3, _⟩ := hf.there _ file h1
        exact List.mem_map.2 ⟨_, h3, rfl⟩)
  have e := congrArg (List.map (·.1)) e
  rwa [List.map_map, List.map_map] at e

/-! ### Commands -/

section
variable {m m' : Machine} (h : Lengthened m m') (hh : Healthy m) (hh' : Healthy m') {flags : Flags}
  {pattern : BazelPattern} {ws : Workspace.Map} {found : List Str} {files : Loaded}
include h hh hh'

/-- **C142** for `depends-on`: targets that are printed are printed, with the same dependencies. -/
theorem C142_depends_on (hs : Starts m flags .dependsOn pattern ws found files) (hd : 0 ≤ flags.depth) :
    ∃ es es', Prints m flags .dependsOn pattern (note found) [c!"library", c!"depends-on"] (grouped es) ∧
      Prints m' flags .dependsOn pattern (note found) [c!"library", c!"depends-on"] (grouped es') ∧
      ∀ e ∈ es, e ∈ es' := by
  obtain ⟨files', hs', hf⟩ := C142_files h hh hh' hs (by simp [needsProject])
  obtain ⟨es, h1, _, h2⟩ := C82_depends_on hh hs hd
  obtain ⟨es', h3, _, h4⟩ := C82_depends_on hh' hs' hd
  refine ⟨es, es', h1, h3, fun e hm => ?_⟩
  obtain ⟨h5, r, h6, h7⟩ := (h2 e.1 e.2).1 hm
  exact (h4 e.1 e.2).2 ⟨reached_more h hh' (starts_nodup hs') hf h5, r, defines_more h hh' (starts_nodup hs') hf h6, h7⟩

/-- **C142** for `has-dependents`. -/
theorem C142_has_dependents (hs : Starts m flags .hasDependents pattern ws found files) :
    ∃ es es', Prints m flags .hasDependents pattern (note found) [c!"library", c!"has-dependent"] (grouped es) ∧
      Prints m' flags .hasDependents pattern (note found) [c!"library", c!"has-dependent"] (grouped es') ∧
      ∀ t bs, (t, bs) ∈ es → ∃ bs', (t, bs') ∈ es' ∧ ∀ b ∈ bs, b ∈ bs' := by
  obtain ⟨files', hs', hf⟩ := C142_files h hh hh' hs (by simp [needsProject])
  obtain ⟨es, h1, _, h2, h3⟩ := C83_has_dependents hh hs
  obtain ⟨es', h4, _, h5, h6⟩ := C83_has_dependents hh' hs'
  have hr : ∀ {t}, Reached m ws .always (limit flags) files t → Reached m' ws .always (limit flags) files' t :=
    reached_more h hh' (starts_nodup hs') hf
  have hed : ∀ {t u}, Edge (world m ws) (trees files) t u → Edge (world m' ws) (trees files') t u :=
    edge_more h hh' (starts_nodup hs') hf
  refine ⟨es, es', h1, h4, fun t bs hm => ?_⟩
  obtain ⟨h7, b, h8, h9⟩ := (h2 t).1 (List.mem_map.2 ⟨_, hm, rfl⟩)
  obtain ⟨⟨_, bs'⟩, h10, rfl⟩ := List.mem_map.1 ((h5 t).2 ⟨h7, b, hr h8, hed h9⟩)
  refine ⟨bs', h10, fun c hc => ?_⟩
  obtain ⟨h11, h12⟩ := (h3 _ bs hm c).1.1 hc
  exact (h6 _ bs' h10 c).1.2 ⟨hr h11, hed h12⟩

/-- **C142** for `list-packages`. -/
theorem C142_list_packages (hs : Starts m flags .listPackages pattern ws found files) (hd : 0 ≤ flags.depth) :
    ∃ rows rows' : List (BazelPackage × Str),
      Prints m flags .listPackages pattern (note found) [c!"bazel-file", c!"package"]
        (rows.map fun e => .row [e.2, e.1.toString]) ∧
      Prints m' flags .listPackages pattern (note found) [c!"bazel-file", c!"package"]
        (rows'.map fun e => .row [e.2, e.1.toString]) ∧ ∀ e ∈ rows, e ∈ rows' := by
  obtain ⟨files', hs', hf⟩ := C142_files h hh hh' hs (by simp [needsProject])
  obtain ⟨es, h1, _, h2⟩ := C85_list_packages_partial hh hs hd
  obtain ⟨es', h3, _, h4⟩ := C85_list_packages_partial hh' hs' hd
  refine ⟨es, es', h1, h3, fun e hm => (h4 e.1 e.2).2 ?_⟩
  rcases (h2 e.1 e.2).1 hm with ⟨file, h5, h6⟩ | ⟨h5, ⟨t, h6, h7⟩, h8⟩
  · obtain ⟨file', h7, h8, _⟩ := hf.there _ _ h5
    exact .inl ⟨file', h7, h8.trans h6⟩
  · refine .inr ⟨fun hc => h5 (hf.other _ hc), ⟨t, reached_more h hh' (starts_nodup hs') hf h6, h7⟩, ?_⟩
    rw [← h8]
    unfold DepGraph.pathForPackage world
    rw [h.fs]

/-- **C142** for `list-targets`: rows that are printed are printed, with the same location. -/
theorem C142_list_targets (hs : Starts m flags .listTargets pattern ws found files) (hd : 0 ≤ flags.depth) :
    ∃ rows rows' : List (Str × Str × BazelTarget),
      Prints m flags .listTargets pattern (note found) [c!"file-location", c!"rule", c!"target"]
        (rows.map fun e => .row [e.1, e.2.1, e.2.2.toString]) ∧
      Prints m' flags .listTargets pattern (note found) [c!"file-location", c!"rule", c!"target"]
        (rows'.map fun e => .row [e.1, e.2.1, e.2.2.toString]) ∧ ∀ e ∈ rows, e ∈ rows' := by
  obtain ⟨files', hs', hf⟩ := C142_files h hh hh' hs (by simp [needsProject])
  obtain ⟨now, h1, h2⟩ := C86_list_targets_partial hh hs hd
  obtain ⟨now', h3, h4⟩ := C86_list_targets_partial hh' hs' hd
  have hloc : m'.nameLoc = m.nameLoc := by rw [h.rest]
  rw [hloc] at h4
  let rows (now : Files) : List (Str × Str × BazelTarget) := now.flatMap fun f =>
    ((targetsOf f).filter fun e => shown flags pattern e.2.2).map fun e => (m.nameLoc f.1 e.1, e.2.1, e.2.2)
  have hrows : ∀ now : Files, ((rows now).map fun e => Op.row [e.1, e.2.1, e.2.2.toString]) =
      now.flatMap fun f => ((targetsOf f).filter fun e => shown flags pattern e.2.2).map fun e =>
        .row [m.nameLoc f.1 e.1, e.2.1, e.2.2.toString] := by
    intro now
    simp only [rows, List.map_flatMap, List.map_map]
    rfl
  refine ⟨rows now, rows now', by rw [hrows]; exact h2, by rw [hrows]; exact h4, fun e hm => ?_⟩
  obtain ⟨f, h0, hm⟩ := List.mem_flatMap.1 hm
  obtain ⟨x, hx, rfl⟩ := List.mem_map.1 hm
  obtain ⟨hx, hsh⟩ := List.mem_filter.1 hx
  obtain ⟨ast', h5, h6⟩ := grown_more h hh' (starts_nodup hs') hf h1 h3 (show (f.1, f.2) ∈ now from h0)
  refine List.mem_flatMap.2 ⟨(f.1, ast'), h5, List.mem_map.2 ⟨x, List.mem_filter.2 ⟨?_, hsh⟩, rfl⟩⟩
  obtain ⟨more, e⟩ := h6.rules []
  unfold targetsOf at hx ⊢
  simp only [e, List.zipIdx_append, List.filter_append, List.map_append]
  exact List.mem_append_left _ hx

/-- **C142** for `aliased-by`. -/
theorem C142_aliased_by (hs : Starts m flags .aliasedBy pattern ws found files) :
    ∃ es es', Prints m flags .aliasedBy pattern (note found) [c!"actual", c!"aliased-by"] (grouped es) ∧
      Prints m' flags .aliasedBy pattern (note found) [c!"actual", c!"aliased-by"] (grouped es') ∧
      ∀ t as, (t, as) ∈ es → ∃ as', (t, as') ∈ es' ∧ ∀ a ∈ as, a ∈ as' := by
  obtain ⟨files', hs', hf⟩ := C142_files h hh hh' hs (by simp [needsProject])
  obtain ⟨es, h1, _, h2⟩ := C89_aliased_by_partial hh hs
  obtain ⟨es', h3, _, h4⟩ := C89_aliased_by_partial hh' hs'
  refine ⟨es, es', h1, h3, fun t as hm => ?_⟩
  obtain ⟨rfl, h5, h6⟩ := (h2 t as).1 hm
  have hsub : ∀ a ∈ aliasesFor (trees files) t, a ∈ aliasesFor (trees files') t := by
    intro a ha
    obtain ⟨f, h0, ha⟩ := List.mem_flatMap.1 ha
    obtain ⟨file, h7, h8⟩ := mem_trees.1 h0
    obtain ⟨file', h9, _, h10⟩ := hf.there _ _ h7
    obtain ⟨more, e⟩ := h10.rules [c!"alias"]
    refine List.mem_flatMap.2 ⟨(f.1, file'.ast), mem_trees.2 ⟨file', h9, rfl⟩, ?_⟩
    simp only [e, List.filterMap_append]
    rw [← h8] at ha
    exact List.mem_append_left _ ha
  refine ⟨_, (h4 t _).2 ⟨rfl, fun hc => ?_, h6⟩, hsub⟩
  obtain ⟨a, ha⟩ := List.exists_mem_of_ne_nil _ h5
  have := hsub a ha
  rw [hc] at this
  cases this

omit hh in
theorem provides_more {n : Nat} {files' : Loaded} (hn' : (files'.map (·.1)).Nodup) (hf : MoreFiles files files')
    {now now' : Files} (hg : Grown m ws pattern n files now) (hg' : Grown m' ws pattern n files' now') {p : Str}
    {t : BazelTarget} (ht : HeaderSpec.Provides now p t) : HeaderSpec.Provides now' p t := by
  have hgm : ∀ {pkg ast}, (pkg, ast) ∈ now → ∃ ast', (pkg, ast') ∈ now' ∧ MoreRules ast ast' :=
    grown_more h hh' hn' hf hg hg'
  cases ht with
  | @library pkg ast r lib x q _ _ h1 h2 h3 h4 h5 h6 h7 h8 =>
    obtain ⟨ast', h9, h10⟩ := hgm h1
    refine .library h9 (moreRules_mem h10 h2) h3 h4 h5 h6 h7 (h8.imp id ?_)
    rintro ⟨pkg, ast, r, a1, a2, a3⟩
    obtain ⟨ast', h9, h10⟩ := hgm a1
    exact ⟨pkg, ast', r, h9, moreRules_mem h10 a2, a3⟩
  | @proto pkg ast r proto grpc src stem ext _ h1 h2 h3 h4 h5 h6 h7 =>
    obtain ⟨ast', h9, h10⟩ := hgm h1
    refine .proto h9 (moreRules_mem h10 h2) h3 (grpc := grpc) ?_ h5 h6 h7
    obtain ⟨more, e⟩ := h10.rules [if grpc then c!"cc_grpc_library" else c!"cc_proto_library"]
    have : ∃ l, HeaderSpec.protoRules pkg ast' grpc = HeaderSpec.protoRules pkg ast grpc ++ l := by
      unfold HeaderSpec.protoRules
      rw [e, List.flatMap_append]
      exact ⟨_, rfl⟩
    obtain ⟨l, e⟩ := this
    obtain ⟨x, h11, h12⟩ := Option.map_eq_some_iff.1 h4
    rw [e, List.find?_append, h11]
    exact congrArg some h12

/-- **C142** for `lib-headers`: each header is printed, with the targets that were printed for it. -/
theorem C142_lib_headers (hs : Starts m flags .libraryHeaders pattern ws found files) (hd : 0 ≤ flags.depth) :
    ∃ rows rows' : List (Str × List BazelTarget),
      Prints m flags .libraryHeaders pattern (note found) [c!"header", c!"providing-rule"]
        (rows.map fun e => .repeated [e.1] (e.2.map BazelTarget.toString)) ∧
      Prints m' flags .libraryHeaders pattern (note found) [c!"header", c!"providing-rule"]
        (rows'.map fun e => .repeated [e.1] (e.2.map BazelTarget.toString)) ∧
      ∀ e ∈ rows, ∃ e' ∈ rows', e'.1 = e.1 ∧ ∀ t ∈ e.2, t ∈ e'.2 := by
  obtain ⟨files', hs', hf⟩ := C142_files h hh hh' hs (by simp [needsProject])
  obtain ⟨now, h1, rows, h2, _, _, h3, h4⟩ := C87_lib_headers_partial hh hs hd
  obtain ⟨now', h5, rows', h6, _, _, h7, h8⟩ := C87_lib_headers_partial hh' hs' hd
  have hpr : ∀ {p t}, HeaderSpec.Provides now p t → HeaderSpec.Provides now' p t :=
    provides_more h hh' (starts_nodup hs') hf h1 h5
  refine ⟨rows, rows', h2, h6, fun e hm => ?_⟩
  obtain ⟨t, ht⟩ := (h3 e.1).1 ⟨e.2, hm⟩
  obtain ⟨ts', hts'⟩ := (h7 e.1).2 ⟨t, hpr ht⟩
  refine ⟨_, hts', rfl, fun u hu' => ?_⟩
  obtain ⟨h9, h10⟩ := (h4 e.1 e.2 hm u).1 hu'
  exact (h8 _ _ hts' u).2 ⟨hpr h9, h10⟩

/-- **C142** for `genrule-outputs`: a file is printed as made by the same rule, or there is another one in a package
that comes before. -/
theorem C142_genrule_outputs (hs : Starts m flags .genruleOutputs pattern ws found files) (hd : 0 ≤ flags.depth) :
    ∃ files' now', Starts m' flags .genruleOutputs pattern ws found files' ∧
      Grown m' ws pattern flags.depth.toNat files' now' ∧
    ∃ rows rows' : List (Str × BazelTarget),
      Prints m flags .genruleOutputs pattern (note found) [c!"generated-file", c!"providing-rule"]
        (rows.map fun e => .row [e.1, e.2.toString]) ∧
      Prints m' flags .genruleOutputs pattern (note found) [c!"generated-file", c!"providing-rule"]
        (rows'.map fun e => .row [e.1, e.2.toString]) ∧
      ∀ e ∈ rows, (∀ t, (e.1, t) ∈ HeaderSpec.outputs now' → t = e.2) → e ∈ rows' := by
  obtain ⟨files', hs', hf⟩ := C142_files h hh hh' hs (by simp [needsProject])
  obtain ⟨now, h1, rows, h2, _, h3⟩ := C88_genrule_outputs hh hs hd
  obtain ⟨now', h4, rows', h5, _, h6⟩ := C88_genrule_outputs hh' hs' hd
  refine ⟨files', now', hs', h4, rows, rows', h2, h5, fun e hm hone => (h6 e.1 e.2).2 ?_⟩
  obtain ⟨h7, h8⟩ := (h3 e.1 e.2).1 hm
  refine ⟨?_, h8⟩
  obtain ⟨⟨p0, t0⟩, h9, h10⟩ := Option.map_eq_some_iff.1 h7
  have h11 := List.mem_of_find?_eq_some h9
  have h12 := List.find?_some h9
  simp only [decide_eq_true_eq] at h10 h12
  subst h10 h12
  have h13 : (e.1, e.2) ∈ HeaderSpec.outputs now' := by
    unfold HeaderSpec.outputs at h11 ⊢
    obtain ⟨f, h14, h15⟩ := List.mem_flatMap.1 h11
    obtain ⟨r, h16, h17⟩ := List.mem_flatMap.1 h15
    obtain ⟨ast', h18, h19⟩ := grown_more h hh' (starts_nodup hs') hf h1 h4 (show (f.1, f.2) ∈ now from h14)
    exact List.mem_flatMap.2 ⟨(f.1, ast'), h18, List.mem_flatMap.2 ⟨r, moreRules_mem h19 h16, h17⟩⟩
  cases hx : (HeaderSpec.outputs now').find? (·.1 = e.1) with
  | none =>
    have := List.find?_eq_none.1 hx _ h13
    simp at this
  | some x =>
    have h14 := List.mem_of_find?_eq_some hx
    have h15 := List.find?_some hx
    simp only [decide_eq_true_eq] at h15
    rw [Option.map_some, hone x.2 (by rw [← h15]; exact h14)]

/-- **C142** for `canonicalize`: the edits are still suggested, in the same order, with others in between. -/
theorem C142_canonicalize (hs : Starts m flags .canonicalizeDeps pattern ws found files) :
    ∃ edits edits', Suggests m flags .canonicalizeDeps pattern (note found) edits ∧
      Suggests m' flags .canonicalizeDeps pattern (note found) edits' ∧ edits.Sublist edits' := by
  obtain ⟨files', hs', hf⟩ := C142_files h hh hh' hs (by simp [needsProject])
  refine ⟨_, _, canonicalize_run hh hs, canonicalize_run hh' hs', List.Sublist.filterMap _ ?_⟩
  have hk := moreFiles_keys hs hs' hf
  unfold matchingDeps
  refine flatMap_more _ (by rw [trees_keys, trees_keys, hk]) (by rw [trees_keys]; exact starts_nodup hs) fun pkg ast hm => ?_
  obtain ⟨file, h1, rfl⟩ := mem_trees.1 hm
  obtain ⟨file', h2, _, h3⟩ := hf.there pkg file h1
  obtain ⟨more, e⟩ := h3.rules []
  refine ⟨_, mem_trees.2 ⟨file', h2, rfl⟩, ?_⟩
  simp only [e, List.flatMap_append]
  exact List.sublist_append_left _ _

end

/-! ### Examples -/

theorem lookup_longer (texts : List (Str × Str)) (f : Str → Str) (p : Str) :
    lookup (texts.map fun e => (e.1, f e.2)) p = (lookup texts p).map f := by
  induction texts with
  | nil => rfl
  | cons e texts ih =>
    rw [List.map_cons, lookup_cons, lookup_cons, ih]
    split <;> rfl

theorem disk_lengthened (texts : List (Str × Str)) (f : Str → Str)
    (h : ∀ e ∈ texts, f e.2 = e.2 ∨ ('/' :: c!"BUILD") <:+ e.1 ∧ LongerText e.2 (f e.2)) :
    Lengthened (disk texts) (disk (texts.map fun e => (e.1, f e.2))) := by
  refine ⟨?_, fun name => ?_, fun name c c' h1 h2 => ?_⟩
  · simp only [disk, lookup_longer, Option.isSome_map, List.map_map, List.filter_map]
    rfl
  · simp only [disk, lookup_longer]
    split
    · simp
    · rw [Option.map_eq_none_iff]
  · simp only [disk, lookup_longer] at h1 h2
    split at h1
    · next hw => rw [if_pos hw] at h2; cases h1; cases h2; exact .inl rfl
    · next hw =>
      rw [if_neg hw, h1] at h2
      cases h2
      rcases h _ (lookup_mem h1) with h3 | ⟨h3, h4⟩
      · exact .inl h3
      · exact .inr ⟨⟨c!"BUILD", by simp, .inr (h3.trans (plainPath_suffix name))⟩, h4⟩

theorem longerText_of {c b : Str} (h : (Parser.parseFile c).map (·.2.errs) = some [])
    (hb : (Scanner.next (Scanner.init b)).1.type ∈ [.identifier, .stringLiteral, .eof]) : LongerText c (c ++ '\n' :: b) := by
  obtain ⟨⟨t, st⟩, h1, h2⟩ := Option.map_eq_some_iff.1 h
  exact ⟨⟨t, st, h1, h2⟩, b, rfl, beginsAnew_of hb⟩

/-- Two packages. -/
def shortPair : List (Str × Str) :=
  [(c!"p/BUILD", c!"cc_library(name=\"a\",hdrs=[\"a.h\"],deps=[\"//q:b\"])"),
   (c!"q/BUILD", c!"cc_library(name=\"b\",hdrs=[\"b.h\"])")]

/-- What is appended to the second one: a rule with the same name, and others. -/
def addition : Str := c!"cc_library(name=\"b\",deps=[\"//p:a\"])\nalias(name=\"x\",actual=\"b\")\ncc_library(name=\"c\",deps=[\"b\"])"

def larger (c : Str) : Str := if c = (shortPair.getD 1 ([], [])).2 then c ++ '\n' :: addition else c

theorem shortPair_larger : Lengthened (disk shortPair) (disk (shortPair.map fun e => (e.1, larger e.2))) := by
  refine disk_lengthened shortPair larger fun e he => ?_
  simp only [shortPair, List.mem_cons, List.not_mem_nil, or_false] at he
  rcases he with rfl | rfl
  · exact .inl (by decide +kernel)
  · refine .inr ⟨List.isSuffixOf_iff_suffix.1 (by decide +kernel), ?_⟩
    rw [show larger c!"cc_library(name=\"b\",hdrs=[\"b.h\"])" =
      c!"cc_library(name=\"b\",hdrs=[\"b.h\"])" ++ '\n' :: addition by decide +kernel]
    exact longerText_of (by decide +kernel) (by decide +kernel)

theorem shortPair_clean : ∀ e ∈ shortPair, cleanText e.2 = true := by decide +kernel
theorem larger_clean : ∀ e ∈ shortPair.map fun e => (e.1, larger e.2), cleanText e.2 = true := by decide +kernel

example : ∃ found es es', Prints (disk shortPair) (steps 1) .dependsOn everything (note found) [c!"library", c!"depends-on"]
      (grouped es) ∧
    Prints (disk (shortPair.map fun e => (e.1, larger e.2))) (steps 1) .dependsOn everything (note found)
      [c!"library", c!"depends-on"] (grouped es') ∧ ∀ e ∈ es, e ∈ es' := by
  obtain ⟨found, files, hs, _⟩ := disk_starts shortPair_clean (by decide +kernel) (steps 1) .dependsOn everything
    (by decide +kernel) rfl
  exact ⟨found, C142_depends_on shortPair_larger (disk_healthy shortPair_clean) (disk_healthy larger_clean) hs (by decide)⟩

example : runCommand (disk shortPair) (steps 1) .dependsOn everything = some ⟨0, c!"//p:a //q:b\n", []⟩ ∧
    runCommand (disk (shortPair.map fun e => (e.1, larger e.2))) (steps 1) .dependsOn everything =
      some ⟨0, c!"//p:a //q:b\n//q:c //q:b\n//q:x //q:b\n", []⟩ := by decide +kernel

example : runCommand (disk shortPair) (steps 1) .libraryHeaders everything =
      some ⟨0, c!"p/a.h //p:a\nq/b.h //q:b\n", []⟩ ∧
    runCommand (disk (shortPair.map fun e => (e.1, larger e.2))) (steps 1) .libraryHeaders everything =
      some ⟨0, c!"p/a.h //p:a\nq/b.h //q:b\nq/b.h //q:x\n", []⟩ := by decide +kernel

/-- A rule makes a file in the directory of another package. -/
def twoMakers (more : Str) : List (Str × Str) :=
  [(c!"a/BUILD", c!"cc_library(name=\"l\",deps=[\"//a/b:g\"])" ++ more),
   (c!"a/b/BUILD", c!"genrule(name=\"g\",outs=[\"x\"])")]

/-- If another rule that makes the same file is appended to a package before, then it is printed instead. -/
example : runCommand (disk (twoMakers [])) (steps 1) .genruleOutputs everything =
      some ⟨0, c!"a/b/x //a/b:g\n", []⟩ ∧
    runCommand (disk (twoMakers c!"\ngenrule(name=\"h\",outs=[\"b/x\"])")) (steps 1) .genruleOutputs everything =
      some ⟨0, c!"a/b/x //a:h\n", []⟩ := by decide +kernel

/-- A name that is too long in each of two packages. -/
def longNames (more : Str) : List (Str × Str) :=
  [(c!"a/BUILD", c!"cc_library(name=\"l\",deps=[\"//a:k\"])" ++ more),
   (c!"b/BUILD", c!"cc_library(name=\"g\",deps=[\"//b:h\"])")]

/-- With another edit between these. -/
example : (runCommand (disk (longNames [])) (steps 0) .canonicalizeDeps everything).map (·.out) =
      some c!"buildozer 'replace deps //a:k :k' //a:l\nbuildozer 'replace deps //b:h :h' //b:g\n" ∧
    (runCommand (disk (longNames c!"\ncc_library(name=\"m\",deps=[\"//b:b\",\"//b:g\"])")) (steps 0) .canonicalizeDeps
      everything).map (·.out) =
      some (c!"buildozer 'replace deps //a:k :k' //a:l\nbuildozer 'replace deps //b:b //b' //a:m\n" ++
        c!"buildozer 'replace deps //b:h :h' //b:g\n") := by decide +kernel

end Props
end Bant
