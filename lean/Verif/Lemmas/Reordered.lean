import Verif.Spec.Reordered
import Verif.Lemmas.SameRulesCommand
import Verif.Lemmas.Elsewhere
import Verif.Props.CommandEdits

/-! Lemmas about projects whose rules are in a different order (C125). -/
namespace Bant
namespace RulesSpec
open Commands CommandSpec Cli Query Rules Headers GraphSpec StableSpec Stable

/-! ### Rules -/

theorem stringsOf_texts (l : Option ListRef) : stringsOf (RulesSpec.textsOf l) = stringsOf l := by
  cases l with
  | none => rfl
  | some l =>
    simp only [RulesSpec.textsOf, Option.map_some, stringsOf, texts, List.filterMap_filterMap]
    congr 1
    congr 1
    funext n
    cases n <;> rfl

theorem stringsOf_same {l l' : Option ListRef} (h : RulesSpec.textsOf l' = RulesSpec.textsOf l) : stringsOf l' = stringsOf l := by
  rw [← stringsOf_texts l', h, stringsOf_texts]

/-- Rules of which the same is told, have the same attributes. -/
structure Alike (r r' : Query.Result) : Prop extends RulesSpec.Same r r' where
  srcsOf : stringsOf r'.srcs = stringsOf r.srcs
  hdrsOf : stringsOf r'.hdrs = stringsOf r.hdrs
  textualHdrsOf : stringsOf r'.textualHdrs = stringsOf r.textualHdrs
  publicHdrsOf : stringsOf r'.publicHdrs = stringsOf r.publicHdrs
  depsOf : stringsOf r'.deps = stringsOf r.deps
  outsOf : stringsOf r'.outs = stringsOf r.outs
  includesOf : stringsOf r'.includes = stringsOf r.includes

theorem alike_of {r r' : Query.Result} (h : told r' = told r) : Alike r r' := by
  have f : ∀ {α : Type} (g : Query.Result → α), g (told r') = g (told r) := fun g => congrArg g h
  exact ⟨same_of h, stringsOf_same (f (·.srcs)), stringsOf_same (f (·.hdrs)), stringsOf_same (f (·.textualHdrs)),
    stringsOf_same (f (·.publicHdrs)), stringsOf_same (f (·.deps)), stringsOf_same (f (·.outs)),
    stringsOf_same (f (·.includes))⟩

theorem deps_alike {r r' : Query.Result} (h : Alike r r') (pkg : BazelPackage) :
    GraphSpec.depsOf pkg r' = GraphSpec.depsOf pkg r := by
  unfold GraphSpec.depsOf
  rw [h.depsOf, h.actual]

/-! ### Trees -/

theorem Shuffled.symm {t t' : Node} (h : Shuffled t t') : Shuffled t' t := by
  refine ⟨h.perm.symm, ?_⟩
  intro pkg target
  have e : ∀ l : List Query.Result, (l.filter fun r => decide (pkg.qualifiedTarget r.name = some target)).length =
      ((l.map told).filter fun r => decide (pkg.qualifiedTarget r.name = some target)).length := by
    intro l
    rw [List.filter_map, List.length_map]
    rfl
  have := h.once pkg target
  rw [e] at this ⊢
  rwa [(h.perm.filter _).length_eq]

theorem Shuffled.kinds {t t' : Node} (h : Shuffled t t') (kinds : List Str) :
    ((rulesOf kinds t').map told).Perm ((rulesOf kinds t).map told) := by
  by_cases hk : kinds = []
  · rw [hk]; exact h.perm
  · rw [rulesOf_filter hk, rulesOf_filter hk]
    have e : ∀ l : List Query.Result, (l.filter fun r => decide (r.rule ∈ kinds)).map told =
        (l.map told).filter fun r => decide (r.rule ∈ kinds) := by
      intro l
      rw [List.filter_map]
      rfl
    rw [e, e]
    exact h.perm.filter _

theorem Shuffled.rule {t t' : Node} (h : Shuffled t t') {kinds : List Str} {r : Query.Result}
    (hr : r ∈ rulesOf kinds t) : ∃ r' ∈ rulesOf kinds t', told r' = told r := by
  have := (h.kinds kinds).mem_iff.2 (List.mem_map.2 ⟨r, hr, rfl⟩)
  obtain ⟨r', h1, h2⟩ := List.mem_map.1 this
  exact ⟨r', h1, h2⟩

theorem Shuffled.flatMap {β : Type} {t t' : Node} (h : Shuffled t t') (kinds : List Str) {f : Query.Result → List β}
    (hf : ∀ r, f (told r) = f r) : ((rulesOf kinds t').flatMap f).Perm ((rulesOf kinds t).flatMap f) := by
  have e : ∀ l : List Query.Result, l.flatMap f = (l.map told).flatMap f := by
    intro l
    rw [List.flatMap_map]
    simp only [hf]
  rw [e (rulesOf kinds t'), e (rulesOf kinds t)]
  exact (h.kinds kinds).flatMap_right f

/-- A target has at most one rule. -/
theorem Shuffled.first {t t' : Node} (h : Shuffled t t') {pkg : BazelPackage} {target : BazelTarget}
    {before after : List Query.Result} {r : Query.Result} (hl : rulesOf [] t = before ++ r :: after)
    (hq : pkg.qualifiedTarget r.name = some target) :
    ∃ before' r' after', rulesOf [] t' = before' ++ r' :: after' ∧ told r' = told r ∧
      pkg.qualifiedTarget r'.name = some target ∧ ∀ x ∈ before', pkg.qualifiedTarget x.name ≠ some target := by
  obtain ⟨r', h1, h2⟩ := h.rule (kinds := []) (r := r) (by rw [hl]; simp)
  obtain ⟨before', after', h3⟩ := List.append_of_mem h1
  have hn : r'.name = r.name := (alike_of h2).name
  refine ⟨before', r', after', h3, h2, by rw [hn]; exact hq, ?_⟩
  intro x hx hc
  have hq' : pkg.qualifiedTarget r'.name = some target := by rw [hn]; exact hq
  have hone := h.symm.once pkg target
  rw [h3, List.filter_append, List.length_append, List.filter_cons_of_pos (by simp [hq']), List.length_cons] at hone
  have : x ∈ before'.filter fun r => decide (pkg.qualifiedTarget r.name = some target) :=
    List.mem_filter.2 ⟨hx, by simp [hc]⟩
  have := List.length_pos_of_mem this
  omega

/-! ### Files -/

/-- The same packages, with the rules in a different order. -/
def Reshuffled (l l' : Files) : Prop := Pairs (fun f f' => f'.1 = f.1 ∧ Shuffled f.2 f'.2) l l'

theorem value_unique {α β : Type} {l : List (α × β)} (hn : (l.map (·.1)).Nodup) {a : α} {b c : β} (h1 : (a, b) ∈ l)
    (h2 : (a, c) ∈ l) : b = c := by
  induction l with
  | nil => cases h1
  | cons x l ih =>
    rw [List.map_cons, List.nodup_cons] at hn
    rcases List.mem_cons.1 h1 with e1 | h1 <;> rcases List.mem_cons.1 h2 with e2 | h2
    · rw [← e1] at e2; cases e2; rfl
    · exact absurd (List.mem_map.2 ⟨_, h2, by rw [← e1]⟩) hn.1
    · exact absurd (List.mem_map.2 ⟨_, h1, by rw [← e2]⟩) hn.1
    · exact ih hn.2 h1 h2

theorem pairs_symm {α β : Type} {R : α → β → Prop} {as : List α} {bs : List β} (h : Pairs R as bs) :
    Pairs (fun b a => R a b) bs as := by
  induction h with
  | nil => exact .nil
  | cons h _ ih => exact .cons h ih

theorem Reshuffled.symm {l l' : Files} (h : Reshuffled l l') : Reshuffled l' l :=
  pairs_mono (pairs_symm h) fun _ _ h => ⟨h.1.symm, h.2.symm⟩

theorem Reshuffled.mem {l l' : Files} (h : Reshuffled l l') {pkg : BazelPackage} {t : Node} (hm : (pkg, t) ∈ l) :
    ∃ t', (pkg, t') ∈ l' ∧ Shuffled t t' := by
  obtain ⟨⟨p, t'⟩, h1, h2, h3⟩ := pairs_left h hm
  simp only at h2
  subst h2
  exact ⟨t', h1, h3⟩

theorem Reshuffled.lookup {l l' : Files} (h : Reshuffled l l') (pkg : BazelPackage) :
    (Headers.lookup l pkg = none ∧ Headers.lookup l' pkg = none) ∨
      ∃ t t', Headers.lookup l pkg = some t ∧ Headers.lookup l' pkg = some t' ∧ Shuffled t t' := by
  induction h with
  | nil => exact .inl ⟨rfl, rfl⟩
  | @cons f f' l l' hf _ ih =>
    obtain ⟨p, t⟩ := f
    obtain ⟨p', t'⟩ := f'
    obtain ⟨h1, h2⟩ := hf
    simp only at h1 h2
    subst h1
    unfold Headers.lookup at ih ⊢
    simp only [List.find?_cons]
    by_cases hp : p' = pkg
    · simp only [hp, decide_true, Option.map_some]
      exact .inr ⟨t, t', rfl, rfl, h2⟩
    · simp only [hp, decide_false]
      exact ih

/-! ### Machines -/

section
variable {m m' : Machine} {e : Bool}

theorem Reordered.fs (h : Reordered e m m') : m'.fs = { m.fs with content := m'.fs.content } :=
  congrArg Machine.fs h.rest

theorem Reordered.glob (h : Reordered e m m') : m'.glob = m.glob := by rw [h.rest]

theorem Reordered.symm (h : Reordered e m m') : Reordered e m' m := by
  refine ⟨?_, fun name => (h.missing name).symm, fun name hn => (h.others name hn).symm, ?_⟩
  · have := h.rest
    obtain ⟨⟨⟩⟩ := m
    obtain ⟨⟨⟩⟩ := m'
    simp only [Machine.mk.injEq, Workspace.FileSystem.mk.injEq] at this ⊢
    simp [this]
  · intro name c c' h1 h2 hb t st t' st' h3 h4
    obtain ⟨h5, h6⟩ := h.builds name c' c h2 h1 hb t' st' t st h4 h3
    refine ⟨fun he => (h5 he).symm, ?_⟩
    intro pkg
    rw [h.glob]
    rcases h6 pkg with ⟨a, b⟩ | ⟨u, u', a, b, c⟩
    · exact .inl ⟨b, a⟩
    · exact .inr ⟨u', u, b, a, c.symm⟩

theorem Reordered.workspaceOf (h : Reordered e m m') : workspaceOf m' = workspaceOf m := by
  have hfs := h.fs
  have hstep : ∀ name ∈ Workspace.wsFiles, ∀ r, Workspace.loadFile m'.fs r name = Workspace.loadFile m.fs r name := by
    intro name hn r
    unfold Workspace.loadFile
    rw [h.others name (Elsewhere.wsFile_notBuild hn)]
    rw [hfs]
    rfl
  have hfold : ∀ (l : List Str) (r : Bool × Workspace.Map), (∀ n ∈ l, n ∈ Workspace.wsFiles) →
      l.foldlM (Workspace.loadFile m'.fs) r = l.foldlM (Workspace.loadFile m.fs) r := by
    intro l
    induction l with
    | nil => intro r _; rfl
    | cons n l ih =>
      intro r hl
      rw [List.foldlM_cons, List.foldlM_cons, hstep n (hl n (by simp))]
      congr 1
      funext r'
      exact ih r' fun x hx => hl x (by simp [hx])
  have haug : ∀ ws, Workspace.augment m'.fs ws = Workspace.augment m.fs ws := by
    intro ws; rw [hfs]; rfl
  unfold CommandSpec.workspaceOf Workspace.load
  rw [hfold _ _ fun n hn => hn]
  simp only [haug]

theorem Reordered.readable (h : Reordered e m m') (ws : Workspace.Map) (project : Str) (pkg : BazelPackage) :
    ∀ found : List Str,
      (firstReadable m ws project pkg found = none ∧ firstReadable m' ws project pkg found = none) ∨
      ∃ name c c', firstReadable m ws project pkg found = some (name, c) ∧
        firstReadable m' ws project pkg found = some (name, c')
  | [] => .inl ⟨rfl, rfl⟩
  | f :: found => by
    have ih := h.readable ws project pkg found
    rw [firstReadable, firstReadable]
    split
    · cases h1 : m.fs.content f with
      | none => rw [(h.missing f).2 h1]; exact ih
      | some c =>
        cases h2 : m'.fs.content f with
        | none => rw [(h.missing f).1 h2] at h1; cases h1
        | some c' => exact .inr ⟨f, c, c', rfl, rfl⟩
    · exact ih

/-- What is read from a file. -/
theorem Reordered.read (h : Reordered e m m') {pkg : BazelPackage} {name c c' : Str} {file : File}
    (h1 : m.fs.content name = some c) (h2 : m'.fs.content name = some c') (hb : IsBuild name)
    (hr : ReadAs m e pkg name c file) :
    ∃ file', ReadAs m' e pkg name c' file' ∧ Shuffled file.ast file'.ast := by
  obtain ⟨t, st, h3, h4, h5, h6⟩ := hr
  obtain ⟨t', st', h7, _⟩ := Parser.parseFile_total c'
  obtain ⟨h8, h9⟩ := h.builds name c c' h1 h2 hb t st t' st' h3 h7
  cases e with
  | false =>
    simp only [Bool.false_eq_true, if_false] at h6
    refine ⟨⟨name, t', decide (st'.errs ≠ [])⟩, ⟨t', st', h7, rfl, by simp, by simp⟩, ?_⟩
    rw [h6]
    exact h8 rfl
  | true =>
    simp only [if_true] at h6
    rcases h9 pkg with ⟨a, _⟩ | ⟨u, u', a, b, hs⟩
    · rw [h6] at a; cases a
    · rw [h6] at a
      cases a
      refine ⟨⟨name, u', decide (st'.errs ≠ [])⟩, ⟨t', st', h7, rfl, by simp, ?_⟩, hs⟩
      simp only [if_true, h.glob]
      exact b

/-- Loaded files with the rules in a different order. -/
def ReshuffledFiles (l l' : Loaded) : Prop :=
  Pairs (fun x y => y.1 = x.1 ∧ y.2.name = x.2.name ∧ Shuffled x.2.ast y.2.ast) l l'

theorem ReshuffledFiles.symm {l l' : Loaded} (h : ReshuffledFiles l l') : ReshuffledFiles l' l :=
  pairs_mono (pairs_symm h) fun _ _ h => ⟨h.1.symm, h.2.1.symm, h.2.2.symm⟩

theorem ReshuffledFiles.trees {l l' : Loaded} (h : ReshuffledFiles l l') : Reshuffled (trees l) (trees l') :=
  pairs_map (pairs_mono h fun _ _ h => ⟨h.1, h.2.2⟩)

theorem ReshuffledFiles.keys {l l' : Loaded} (h : ReshuffledFiles l l') : l'.map (·.1) = l.map (·.1) :=
  (pairs_eq (pairs_map (pairs_mono h fun _ _ h => h.1.symm))).symm

theorem Reordered.starts {flags : Flags} {cmd : Command} (h : Reordered (evaluates flags cmd) m m') (hh' : Healthy m')
    {pattern : BazelPattern} {ws : Workspace.Map} {found : List Str} {files : Loaded}
    (hs : Starts m flags cmd pattern ws found files) (hneed : needsProject cmd pattern = true) :
    ∃ files', Starts m' flags cmd pattern ws found files' ∧
      ReshuffledFiles files files' := by
  have hf : Collect.collectBuildFiles m'.tree m'.symlink ws (searched cmd pattern) m'.steps = some found := by
    rw [h.rest]; exact hs.opened.files
  obtain ⟨files', hs', _⟩ := Props.C85_opened hh' (h.workspaceOf.trans hs.workspace) hs.roots flags cmd pattern hf hneed
  have key : ∀ {m m' : Machine} {files files' : Loaded}, Reordered (evaluates flags cmd) m m' →
      Starts m flags cmd pattern ws found files → Starts m' flags cmd pattern ws found files' →
      ∀ pkg f, (pkg, f) ∈ files → ∃ f', (pkg, f') ∈ files' ∧ f'.name = f.name ∧ Shuffled f.ast f'.ast := by
    intro m m' files files' h hs hs' pkg f hm
    obtain ⟨name, c, h1, h2⟩ := (hs.opened.each pkg f).1 hm
    rcases h.readable ws (searched cmd pattern).pattern.package.project pkg found with
      ⟨a, _⟩ | ⟨name', c1, c', a, b⟩
    · rw [h1] at a; cases a
    · rw [h1] at a
      cases a
      obtain ⟨m1, m2, _⟩ := firstReadable_mem h1
      obtain ⟨_, m3, _⟩ := firstReadable_mem b
      obtain ⟨f', g1, g2⟩ := h.read m2 m3 (found_build hs.opened.files _ m1) h2
      refine ⟨f', (hs'.opened.each pkg f').2 ⟨name, c', b, g1⟩, ?_, g2⟩
      obtain ⟨_, _, _, e1, _⟩ := h2
      obtain ⟨_, _, _, e2, _⟩ := g1
      rw [e1, e2]
  refine ⟨files', hs', ?_⟩
  refine Props.pairs_of_keys (R := fun x y => y.2.name = x.2.name ∧ Shuffled x.2.ast y.2.ast) hs.opened.order
    hs'.opened.order ?_ ?_
  · intro pkg
    simp only [List.mem_map]
    constructor
    · rintro ⟨⟨p, f⟩, hm, rfl⟩
      obtain ⟨f', h1, _⟩ := key h hs hs' p f hm
      exact ⟨(p, f'), h1, rfl⟩
    · rintro ⟨⟨p, f⟩, hm, rfl⟩
      obtain ⟨f', h1, _⟩ := key h.symm hs' hs p f hm
      exact ⟨(p, f'), h1, rfl⟩
  · intro pkg f f' hm hm'
    obtain ⟨f2, h1, h2⟩ := key h hs hs' pkg f hm
    obtain ⟨n1, c1, a1, a2⟩ := (hs'.opened.each pkg f2).1 h1
    obtain ⟨n2, c2, b1, b2⟩ := (hs'.opened.each pkg f').1 hm'
    rw [a1] at b1
    cases b1
    rw [Props.readAs_unique b2 a2]
    exact h2

/-! ### The graph -/

theorem Reordered.load (h : Reordered e m m') (ws : Workspace.Map) {pkg : BazelPackage} {t : Node}
    (hl : DepGraph.load (world m ws) pkg = some (some t)) :
    ∃ t', DepGraph.load (world m' ws) pkg = some (some t') ∧ Shuffled t t' := by
  have hpath : DepGraph.pathForPackage (world m' ws) pkg = DepGraph.pathForPackage (world m ws) pkg := by
    simp only [DepGraph.pathForPackage, world]
    rw [h.fs]
  unfold DepGraph.load at hl ⊢
  rw [hpath]
  cases hp : DepGraph.pathForPackage (world m ws) pkg with
  | none => rw [hp] at hl; cases hl
  | some path =>
    rw [hp] at hl
    simp only [world, h.glob] at hl ⊢
    cases h1 : m.fs.content path with
    | none => rw [h1] at hl; cases hl
    | some c =>
      cases h2 : m'.fs.content path with
      | none => rw [(h.missing path).1 h2] at h1; cases h1
      | some c' =>
        obtain ⟨t0, st, h3, _⟩ := Parser.parseFile_total c
        obtain ⟨t', st', h4, _⟩ := Parser.parseFile_total c'
        simp only [h1, h3, Option.map_eq_some_iff, Option.some.injEq] at hl
        obtain ⟨u, hu, rfl⟩ := hl
        rcases (h.builds path c c' h1 h2 (Layout.path_build hp) t0 st t' st' h3 h4).2 pkg with
          ⟨a, _⟩ | ⟨v, v', a, b, hs⟩
        · rw [hu] at a; cases a
        · rw [hu] at a
          cases a
          refine ⟨v', ?_, hs⟩
          simp only [h4, b, Option.map_some]

theorem Reordered.tree (h : Reordered e m m') (ws : Workspace.Map) {l l' : Files} (hl : Reshuffled l l')
    {pkg : BazelPackage} {t : Node} (ht : GraphSpec.treeOf (world m ws) l pkg = some t) :
    ∃ t', GraphSpec.treeOf (world m' ws) l' pkg = some t' ∧ Shuffled t t' := by
  unfold GraphSpec.treeOf at ht ⊢
  rcases hl.lookup pkg with ⟨h1, h2⟩ | ⟨t1, t1', h1, h2, h3⟩
  · rw [h1] at ht
    rw [h2]
    simp only at ht ⊢
    split at ht
    · next u hu =>
      cases ht
      obtain ⟨t', h3, h4⟩ := h.load ws hu
      exact ⟨t', by rw [h3], h4⟩
    · cases ht
  · rw [h1] at ht
    cases ht
    rw [h2]
    exact ⟨t1', rfl, h3⟩

theorem Reordered.defines (h : Reordered e m m') (ws : Workspace.Map) {l l' : Files} (hl : Reshuffled l l')
    {t : BazelTarget} {r : Query.Result} (hd : Defines (world m ws) l t r) :
    ∃ r', Defines (world m' ws) l' t r' ∧ told r' = told r := by
  obtain ⟨ast, before, after, h1, h2, h3, _⟩ := hd
  obtain ⟨ast', h4, h5⟩ := h.tree ws hl h1
  obtain ⟨before', r', after', h6, h7, h8, h9⟩ := h5.first h2 h3
  exact ⟨r', ⟨ast', before', after', h4, h6, h8, h9⟩, h7⟩

theorem Reordered.edge (h : Reordered e m m') (ws : Workspace.Map) {l l' : Files} (hl : Reshuffled l l')
    {t u : BazelTarget} (he : Edge (world m ws) l t u) : Edge (world m' ws) l' t u := by
  obtain ⟨r, h1, h2⟩ := he
  obtain ⟨r', h3, h4⟩ := h.defines ws hl h1
  exact ⟨r', h3, by rw [deps_alike (alike_of h4)]; exact h2⟩

theorem root_shuffled {l l' : Files} (hl : Reshuffled l l') {pattern : BazelPattern} {t : BazelTarget}
    (hr : Root pattern l t) : Root pattern l' t := by
  obtain ⟨⟨pkg, ast⟩, hf, r, h1, h2, h3⟩ := hr
  obtain ⟨ast', h4, h5⟩ := hl.mem hf
  obtain ⟨r', h6, h7⟩ := h5.rule h1
  exact ⟨(pkg, ast'), h4, r', h6, by rw [(alike_of h7).name]; exact h2, h3⟩

theorem Reordered.reachIn (h : Reordered e m m') (ws : Workspace.Map) {l l' : Files} (hl : Reshuffled l l')
    {pattern : BazelPattern} {n : Nat} {t : BazelTarget} (hr : ReachIn (world m ws) pattern l n t) :
    ReachIn (world m' ws) pattern l' n t := by
  induction hr with
  | root hr => exact .root (root_shuffled hl hr)
  | step _ he ih => exact .step ih (h.edge ws hl he)

theorem Reordered.reached (h : Reordered e m m') (ws : Workspace.Map) {l l' : Loaded} (hl : ReshuffledFiles l l')
    {pattern : BazelPattern} {depth : Nat} {t : BazelTarget} :
    Reached m' ws pattern depth l' t ↔ Reached m ws pattern depth l t :=
  ⟨fun ⟨n, h1, h2⟩ => ⟨n, h1, h.symm.reachIn ws hl.symm.trees h2⟩, fun ⟨n, h1, h2⟩ => ⟨n, h1, h.reachIn ws hl.trees h2⟩⟩

theorem Reordered.grown (h : Reordered e m m') {ws : Workspace.Map} {l l' : Loaded} (hl : ReshuffledFiles l l')
    {pattern : BazelPattern} {depth : Nat} {now now' : Files} (hg : Grown m ws pattern depth l now)
    (hg' : Grown m' ws pattern depth l' now') : Reshuffled now now' := by
  have key : ∀ {m m' : Machine} {l l' : Loaded} {now now' : Files}, Reordered e m m' → ReshuffledFiles l l' →
      Grown m ws pattern depth l now → Grown m' ws pattern depth l' now' →
      ∀ pkg t, (pkg, t) ∈ now → ∃ t', (pkg, t') ∈ now' ∧ Shuffled t t' := by
    intro m m' l l' now now' h hl hg hg' pkg t hm
    rcases (hg.each pkg t).1 hm with h1 | ⟨h1, h2, t1, h3, h4⟩
    · obtain ⟨t', h5, h6⟩ := hl.trees.mem h1
      exact ⟨t', (hg'.each pkg t').2 (.inl h5), h6⟩
    · obtain ⟨t', h5, h6⟩ := h.load ws h2
      refine ⟨t', (hg'.each pkg t').2 (.inr ⟨?_, h5, t1, (h.reached ws hl).2 h3, h4⟩), h6⟩
      rw [hl.keys]; exact h1
  refine Props.pairs_of_keys (R := fun x y => Shuffled x.2 y.2) hg.order hg'.order ?_ ?_
  · intro pkg
    simp only [List.mem_map]
    constructor
    · rintro ⟨⟨p, f⟩, hm, rfl⟩
      obtain ⟨f', h1, _⟩ := key h hl hg hg' p f hm
      exact ⟨(p, f'), h1, rfl⟩
    · rintro ⟨⟨p, f⟩, hm, rfl⟩
      obtain ⟨f', h1, _⟩ := key h.symm hl.symm hg' hg p f hm
      exact ⟨(p, f'), h1, rfl⟩
  · intro pkg f f' hm hm'
    obtain ⟨f2, h1, h2⟩ := key h hl hg hg' pkg f hm
    have : f2 = f' := value_unique (Ascending.nodup hg'.order) h1 hm'
    rw [← this]
    exact h2

end

/-! ### What is found in the files -/

theorem Reshuffled.alias {l l' : Files} (h : Reshuffled l l') {t a : BazelTarget} (ha : HeaderSpec.Alias l t a) :
    HeaderSpec.Alias l' t a := by
  obtain ⟨pkg, ast, r, h1, h2, h3, h4⟩ := ha
  obtain ⟨ast', h5, h6⟩ := h.mem h1
  obtain ⟨r', h7, h8⟩ := h6.rule h2
  have hr := alike_of h8
  exact ⟨pkg, ast', r', h5, h7, by rw [hr.name]; exact h3, by rw [hr.actual, hr.hasActual]; exact h4⟩

theorem included_alike {pkg : BazelPackage} {r r' : Query.Result} (hr : Alike r r') {h p : Str}
    (hi : HeaderSpec.IncludedAs pkg r h p) : HeaderSpec.IncludedAs pkg r' h p := by
  cases hi with
  | prescribed h1 => rw [← hr.includePrefix] at h1 ⊢; exact .prescribed h1
  | short h1 h2 h3 h4 =>
    rw [← hr.includePrefix] at h1
    rw [← hr.stripIncludePrefix] at h2
    exact .short h1 h2 h3 h4
  | long h1 h2 =>
    rw [← hr.includePrefix] at h1
    rw [← hr.stripIncludePrefix] at h2
    exact .long h1 h2
  | relative h1 h2 h3 h4 =>
    rw [← hr.includePrefix] at h1
    rw [← hr.includesOf] at h2
    exact .relative h1 h2 h3 h4

theorem exempt_alike {pkg : BazelPackage} {r r' : Query.Result} (hr : Alike r r') {h : Str} :
    HeaderSpec.Exempt pkg r' h ↔ HeaderSpec.Exempt pkg r h := by
  unfold HeaderSpec.Exempt
  rw [hr.hdrsOf, hr.textualHdrsOf]

theorem find_perm {α β : Type} [DecidableEq α] {l l' : List (α × β)} (h : l'.Perm l)
    (hu : ∀ x ∈ l, ∀ y ∈ l, y.1 = x.1 → y.2 = x.2) (a : α) :
    (l'.find? (·.1 = a)).map (·.2) = (l.find? (·.1 = a)).map (·.2) := by
  cases h1 : l.find? (·.1 = a) with
  | none =>
    have : l'.find? (·.1 = a) = none := by
      rw [List.find?_eq_none] at h1 ⊢
      exact fun x hx => h1 x (h.mem_iff.1 hx)
    rw [this]
  | some x =>
    have hx := List.mem_of_find?_eq_some h1
    have ha := List.find?_some h1
    cases h2 : l'.find? (·.1 = a) with
    | none =>
      rw [List.find?_eq_none] at h2
      exact absurd ha (h2 x (h.mem_iff.2 hx))
    | some y =>
      have hy := h.mem_iff.1 (List.mem_of_find?_eq_some h2)
      have hb := List.find?_some h2
      simp only [decide_eq_true_eq] at ha hb
      rw [Option.map_some, Option.map_some, hu x hx y hy (hb.trans ha.symm)]

theorem texts_texts (xs : List Node) : texts (texts xs) = texts xs := by
  unfold texts
  rw [List.filterMap_filterMap]
  congr 1
  funext n
  cases n <;> rfl

theorem told_told (r : Query.Result) : told (told r) = told r := by
  have h : ∀ l : Option ListRef, RulesSpec.textsOf (RulesSpec.textsOf l) = RulesSpec.textsOf l := by
    intro l
    cases l with
    | none => rfl
    | some l => simp only [RulesSpec.textsOf, Option.map_some, texts_texts]
  simp only [told, h]
  congr 1
  split
  · cases hn : r.node with
    | call a b =>
      cases b with
      | list k args => simp only [texts_texts]
      | _ => rfl
    | _ => rfl
  · rfl

theorem alike_told (r : Query.Result) : Alike r (told r) := alike_of (told_told r)

theorem Shuffled.protoRules {t t' : Node} (h : Shuffled t t') (pkg : BazelPackage) (grpc : Bool) :
    (HeaderSpec.protoRules pkg t' grpc).Perm (HeaderSpec.protoRules pkg t grpc) := by
  refine h.flatMap _ ?_
  intro r
  have hr := alike_told r
  rw [hr.name]
  cases grpc
  · simp only [Bool.false_eq_true, if_false, hr.depsOf]
  · simp only [if_true, hr.srcsOf]

theorem Reshuffled.provides {l l' : Files} (h : Reshuffled l l') (ho : ProtoOnce l) {p : Str} {t : BazelTarget}
    (hp : HeaderSpec.Provides l p t) : HeaderSpec.Provides l' p t := by
  cases hp with
  | library h1 h2 h3 h4 h5 h6 h7 h8 =>
    obtain ⟨ast', g1, g2⟩ := h.mem h1
    obtain ⟨r', g3, g4⟩ := g2.rule h2
    have hr := alike_of g4
    exact .library g1 g3 (by rw [hr.name]; exact h3) (by rw [hr.hdrsOf, hr.textualHdrsOf, hr.publicHdrsOf]; exact h4)
      (fun hc => h5 ((exempt_alike hr).1 hc)) (included_alike hr h6) h7 (h8.imp id h.alias)
  | @proto pkg ast r proto grpc src stem ext lib h1 h2 h3 h4 h5 h6 h7 =>
    obtain ⟨ast', g1, g2⟩ := h.mem h1
    obtain ⟨r', g3, g4⟩ := g2.rule h2
    have hr := alike_of g4
    refine .proto g1 g3 (by rw [hr.name]; exact h3) ?_ (by rw [hr.srcsOf]; exact h5) h6 h7
    rw [find_perm (g2.protoRules pkg grpc) (ho _ h1 grpc)]
    exact h4

theorem Reshuffled.protoOnce {l l' : Files} (h : Reshuffled l l') (ho : ProtoOnce l) : ProtoOnce l' := by
  intro f hf grpc x hx y hy
  obtain ⟨ast, h1, h2⟩ := h.symm.mem hf
  have hp := h2.symm.protoRules f.1 grpc
  exact ho _ h1 grpc x (hp.mem_iff.1 hx) y (hp.mem_iff.1 hy)

/-- What is gathered from the rules, file by file. -/
theorem Reshuffled.flatMap {β : Type} {l l' : Files} (h : Reshuffled l l') (kinds : List Str)
    {f : BazelPackage → Query.Result → List β} (hf : ∀ pkg r, f pkg (told r) = f pkg r) :
    (l'.flatMap fun x => (rulesOf kinds x.2).flatMap (f x.1)).Perm
      (l.flatMap fun x => (rulesOf kinds x.2).flatMap (f x.1)) := by
  induction h with
  | nil => exact .refl _
  | cons h1 _ ih =>
    rw [List.flatMap_cons, List.flatMap_cons, h1.1]
    exact (h1.2.flatMap kinds (hf _)).append ih

theorem Reshuffled.outputs {l l' : Files} (h : Reshuffled l l') :
    (HeaderSpec.outputs l').Perm (HeaderSpec.outputs l) := by
  refine h.flatMap _ (f := fun pkg r => match pkg.qualifiedTarget r.name with
    | none => []
    | some t => (stringsOf r.outs).map fun o => (pkg.qualifiedFile o, t)) ?_
  intro pkg r
  have hr := alike_told r
  simp only [hr.name, hr.outsOf]

theorem Reshuffled.aliases {l l' : Files} (h : Reshuffled l l') (t : BazelTarget) :
    (aliasesFor l' t).Perm (aliasesFor l t) := by
  have e : ∀ l, aliasesFor l t = l.flatMap fun x => (rulesOf [c!"alias"] x.2).flatMap fun r =>
      (if r.hasActual = true ∧ BazelTarget.parseFrom r.actual x.1 = some t then x.1.qualifiedTarget r.name else none).toList := by
    intro l
    unfold aliasesFor
    congr 1
    funext x
    generalize rulesOf [c!"alias"] x.2 = rs
    induction rs with
    | nil => rfl
    | cons r rs ih =>
      rw [List.filterMap_cons, List.flatMap_cons, ← ih]
      split <;> rename_i hr <;> rw [hr] <;> rfl
  rw [e, e]
  refine h.flatMap _ (f := fun pkg r =>
    (if r.hasActual = true ∧ BazelTarget.parseFrom r.actual pkg = some t then pkg.qualifiedTarget r.name else none).toList) ?_
  intro pkg r
  have hr := alike_told r
  rw [hr.name, hr.actual, hr.hasActual]

theorem Reshuffled.deps {l l' : Files} (h : Reshuffled l l') (pattern : BazelPattern) :
    (matchingDeps pattern l').Perm (matchingDeps pattern l) := by
  refine h.flatMap _ (f := fun pkg r => match pkg.qualifiedTarget r.name with
    | none => []
    | some t => if pattern.matchTarget t then (stringsOf r.deps).map fun dep => (t, dep) else []) ?_
  intro pkg r
  have hr := alike_told r
  simp only [hr.name, hr.depsOf]

/-- The kinds and names of the rules that are shown. -/
theorem Reshuffled.targets {l l' : Files} (h : Reshuffled l l') :
    ((l'.flatMap targetsOf).map (·.2)).Perm ((l.flatMap targetsOf).map (·.2)) := by
  have e : ∀ l : Files, (l.flatMap targetsOf).map (·.2) = l.flatMap fun x => (rulesOf [] x.2).flatMap fun r =>
      if ':' ∉ r.name then [(r.rule, (⟨x.1, r.name⟩ : BazelTarget))] else [] := by
    intro l
    rw [List.map_flatMap]
    congr 1
    funext x
    unfold targetsOf
    rw [List.map_map]
    generalize rulesOf [] x.2 = rs
    generalize 0 = n
    induction rs generalizing n with
    | nil => rfl
    | cons r rs ih =>
      rw [List.zipIdx_cons, List.filter_cons, List.flatMap_cons, ← ih (n + 1)]
      by_cases hc : ':' ∈ r.name <;> simp [hc]
  rw [e, e]
  exact h.flatMap _ (f := fun pkg r => if ':' ∉ r.name then [(r.rule, (⟨pkg, r.name⟩ : BazelTarget))] else [])
    fun _ _ => rfl

end RulesSpec
end Bant
