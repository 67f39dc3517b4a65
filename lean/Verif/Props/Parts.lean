import Verif.Lemmas.Parts
import Verif.Props.CommandEdits
import Verif.Props.CommandOutput
import Verif.Props.Invariance

/-! Asking for a part of a project (C136). -/
namespace Bant
namespace Props
open Commands hiding Result
open Cli Query Rules Headers GraphSpec CommandSpec InvarianceSpec FileUtils FileSpec CollectSpec PartSpec

/-- **C136**, full statement: whoever asks for less, is told that part of what they are told otherwise. Here for
`canonicalize`. -/
def C136_statement : Prop :=
  ∀ (m : Machine) (flags : Flags) (p q : BazelPattern) (ws : Workspace.Map) (found found' : List Str)
    (files files' : Loaded), Healthy m → Narrower p q →
    Starts m flags .canonicalizeDeps p ws found files → Starts m flags .canonicalizeDeps q ws found' files' →
    ∃ edits, Suggests m flags .canonicalizeDeps q (note found') edits ∧
      Suggests m flags .canonicalizeDeps p (note found) (edits.filter fun e => p.matchTarget e.target)

/-- Two patterns in an orderly project, where one is for a part of the other. -/
structure Asks (m : Machine) (ws : Workspace.Map) (p q : BazelPattern) : Prop where
  narrower : Narrower p q
  within : ∃ names, Within m ws p q names
  orderly : ∃ steps ≤ m.steps, Orderly m ws p steps ∧ Orderly m ws q steps

variable {m : Machine} {flags : Flags} {cmd : Command} {p q : BazelPattern} {ws : Workspace.Map}
  {found found' : List Str} {files files' : Loaded}

theorem starts_views (ha : Asks m ws p q) (hc : cmd ≠ .hasDependents) (hs : Starts m flags cmd p ws found files)
    (hs' : Starts m flags cmd q ws found' files') :
    views files = (views files').filter fun f => p.matchPackage f.1 := by
  obtain ⟨names, hw⟩ := ha.within
  obtain ⟨steps, h1, h2, h3⟩ := ha.orderly
  have ho := hs.opened
  have ho' := hs'.opened
  rw [searched, if_neg hc] at ho ho'
  exact views_part h1 hs.roots h2 h3 hw ho ho'

theorem starts_trees (ha : Asks m ws p q) (hc : cmd ≠ .hasDependents) (hs : Starts m flags cmd p ws found files)
    (hs' : Starts m flags cmd q ws found' files') :
    trees files = (trees files').filter fun f => p.matchPackage f.1 := by
  rw [views_trees, starts_views ha hc hs hs', views_trees, List.filter_map]
  rfl

/-- Of the files, only those in the packages matter. -/
theorem flatMap_part {α β : Type} (l : List α) (keep : α → Bool) (f : α → List β)
    (h : ∀ a ∈ l, keep a = false → f a = []) : (l.filter keep).flatMap f = l.flatMap f := by
  induction l with
  | nil => rfl
  | cons a l ih =>
    rw [List.filter_cons, List.flatMap_cons, ← ih fun x hx => h x (.tail _ hx)]
    cases hk : keep a with
    | false => rw [h a (by simp) hk]; simp
    | true => simp

theorem filter_flatMap {α β : Type} (l : List α) (f : α → List β) (keep : β → Bool) :
    (l.flatMap f).filter keep = l.flatMap fun a => (f a).filter keep := by
  induction l with
  | nil => rfl
  | cons a l ih => rw [List.flatMap_cons, List.filter_append, ih, List.flatMap_cons]

theorem matchingDeps_part (hn : Narrower p q) (fs : Files) :
    matchingDeps p (fs.filter fun f => p.matchPackage f.1) =
      (matchingDeps q fs).filter fun x => p.matchTarget x.1 := by
  unfold matchingDeps
  rw [flatMap_part, filter_flatMap]
  · congr 1
    funext f
    rw [filter_flatMap]
    congr 1
    funext r
    cases hq : f.1.qualifiedTarget r.name with
    | none => rfl
    | some t =>
      cases hp : p.matchTarget t with
      | false => cases hq' : q.matchTarget t <;> simp [hp, hq']
      | true =>
        simp only [hn t hp, if_true, hp]
        rw [List.filter_eq_self.2]
        intro x hx
        obtain ⟨d, _, rfl⟩ := List.mem_map.1 hx
        exact hp
  · intro f _ hf
    rw [List.flatMap_eq_nil_iff]
    intro r _
    cases hq : f.1.qualifiedTarget r.name with
    | none => rfl
    | some t =>
      cases hp : p.matchTarget t with
      | false => simp [hp]
      | true =>
        rw [← qualifiedTarget_package hq, matchTarget_package hp] at hf
        cases hf

theorem edits_part (deps : List (BazelTarget × Str)) (keep : BazelTarget → Bool) :
    (deps.filter fun x => keep x.1).filterMap (fun x => canonDep x.1.package x.1 x.2) =
      (deps.filterMap fun x => canonDep x.1.package x.1 x.2).filter fun e => keep e.target := by
  induction deps with
  | nil => rfl
  | cons x deps ih =>
    rw [List.filter_cons, List.filterMap_cons]
    cases hc : canonDep x.1.package x.1 x.2 with
    | none => cases hk : keep x.1 <;> simp [hc, ih]
    | some e =>
      obtain ⟨t, _, _, rfl⟩ := canonDep_some.1 hc
      cases hk : keep x.1 <;> simp [hc, ih, hk]

/-- **C136** for `canonicalize`: the edits are those that are suggested anyway, for the targets that are asked for,
in the same order. -/
theorem C136_canonicalize_partial (hh : Healthy m) (ha : Asks m ws p q)
    (hs : Starts m flags .canonicalizeDeps p ws found files)
    (hs' : Starts m flags .canonicalizeDeps q ws found' files') :
    ∃ edits, Suggests m flags .canonicalizeDeps q (note found') edits ∧
      Suggests m flags .canonicalizeDeps p (note found) (edits.filter fun e => p.matchTarget e.target) := by
  refine ⟨_, canonicalize_run hh hs', ?_⟩
  rw [← edits_part, ← matchingDeps_part ha.narrower, ← starts_trees ha (by simp) hs hs']
  exact canonicalize_run hh hs

/-! ### Lists -/

theorem reachedZero {pattern : BazelPattern} {fs : Loaded} {t : BazelTarget} :
    Reached m ws pattern 0 fs t ↔ Root pattern (trees fs) t := by
  constructor
  · rintro ⟨n, h1, h2⟩
    obtain rfl : n = 0 := by omega
    cases h2 with
    | root h => exact h
  · exact fun h => ⟨0, Nat.le_refl _, .root h⟩

theorem root_package {pattern : BazelPattern} {fs : Loaded} {t : BazelTarget} (h : Root pattern (trees fs) t) :
    t.package ∈ fs.map (·.1) := by
  obtain ⟨f, hf, r, _, hq, _⟩ := h
  rw [qualifiedTarget_package hq, ← trees_keys]
  exact List.mem_map.2 ⟨f, hf, rfl⟩

theorem grown_zero {pattern : BazelPattern} {fs : Loaded} {now : Files}
    (ho : (fs.map (·.1)).Pairwise fun a b => Ordered.lt a b = true) (h : Grown m ws pattern 0 fs now) :
    now = trees fs := by
  refine sorted_ext h.order (by rw [trees_keys]; exact ho) ?_
  rintro ⟨pkg, ast⟩
  rw [h.each]
  refine or_iff_left ?_
  rintro ⟨h1, _, t, h2, rfl⟩
  exact h1 (root_package (reachedZero.1 h2))

theorem root_part (hn : Narrower p q) {fs : Files} {t : BazelTarget} :
    Root p (fs.filter fun f => p.matchPackage f.1) t ↔ Root q fs t ∧ p.matchTarget t = true := by
  constructor
  · rintro ⟨f, hf, r, h1, h2, h3⟩
    exact ⟨⟨f, (List.mem_filter.1 hf).1, r, h1, h2, hn _ h3⟩, h3⟩
  · rintro ⟨⟨f, hf, r, h1, h2, _⟩, h3⟩
    refine ⟨f, List.mem_filter.2 ⟨hf, ?_⟩, r, h1, h2, h3⟩
    rw [← qualifiedTarget_package h2]
    exact matchTarget_package h3

theorem firstReadable_same {m' : Machine} (h : m'.fs = m.fs) (project : Str) (pkg : BazelPackage) (l : List Str) :
    firstReadable m' ws project pkg l = firstReadable m ws project pkg l := by
  induction l with
  | nil => rfl
  | cons f l ih => simp only [firstReadable, h, ih]

theorem starts_same {m' : Machine} (hs : Starts m flags cmd p ws found files) (h1 : m'.fs = m.fs) (h2 : m'.tree = m.tree)
    (h3 : m'.symlink = m.symlink) (h4 : m'.steps = m.steps) (h5 : m'.glob = m.glob) :
    Starts m' flags cmd p ws found files := by
  refine ⟨?_, hs.roots, ?_, hs.opened.order, fun pkg file => ?_⟩
  · rw [workspaceOf, h1]; exact hs.workspace
  · rw [h2, h3, h4]; exact hs.opened.files
  · rw [hs.opened.each]
    simp only [firstReadable_same h1, CommandSpec.ReadAs, h5]

/-- **C136** for `list-targets`: of the lines that are printed anyway, those for targets that are asked for; in the
same order. Only the names of files (`loc`) may be different: it is `a/BUILD` if one asks for `//a`, `./a/BUILD` if
one asks for `//...`. -/
theorem C136_list_targets_partial (hh : Healthy m) (ha : Asks m ws p q) (hd : flags.depth = 0)
    (hs : Starts m flags .listTargets p ws found files) (hs' : Starts m flags .listTargets q ws found' files')
    (loc : BazelPackage → Nat → Str) :
    ∃ rows : List (Nat × Str × BazelTarget),
      Prints m flags .listTargets q (note found') [c!"file-location", c!"rule", c!"target"]
        (rows.map fun e => .row [m.nameLoc e.2.2.package e.1, e.2.1, e.2.2.toString]) ∧
      Prints { m with nameLoc := loc } flags .listTargets p (note found) [c!"file-location", c!"rule", c!"target"]
        ((rows.filter fun e => p.matchTarget e.2.2).map fun e =>
          .row [loc e.2.2.package e.1, e.2.1, e.2.2.toString]) := by
  obtain ⟨now', g1, g2⟩ := C86_list_targets_partial hh hs' (by omega)
  obtain ⟨now, g3, g4⟩ := C86_list_targets_partial (m := { m with nameLoc := loc }) (flags := flags) (pattern := p)
    (ws := ws) (found := found) (files := files) ⟨hh.readable, hh.usable⟩
    (starts_same hs rfl rfl rfl rfl rfl) (by omega)
  rw [show flags.depth.toNat = 0 by rw [hd]; rfl] at g1 g3
  obtain rfl := grown_zero hs'.opened.order g1
  obtain rfl := grown_zero hs.opened.order g3
  have hsh : ∀ pattern : BazelPattern, shown flags pattern = pattern.matchTarget := by
    intro pattern; funext t; simp [shown, hd]
  have hpk : ∀ f : BazelPackage × Node, ∀ e ∈ targetsOf f, e.2.2.package = f.1 := by
    intro f e he
    obtain ⟨x, _, rfl⟩ := List.mem_map.1 he
    rfl
  have hrows : ∀ (fs : Files) (pattern : BazelPattern) (loc : BazelPackage → Nat → Str),
      (fs.flatMap fun f => ((targetsOf f).filter fun e => pattern.matchTarget e.2.2).map fun e =>
        Table.Op.row [loc f.1 e.1, e.2.1, e.2.2.toString]) =
      (fs.flatMap fun f => (targetsOf f).filter fun e => pattern.matchTarget e.2.2).map fun e =>
        .row [loc e.2.2.package e.1, e.2.1, e.2.2.toString] := by
    intro fs pattern loc
    rw [List.map_flatMap]
    congr 1
    funext f
    refine List.map_congr_left fun e he => ?_
    rw [hpk f e (List.mem_filter.1 he).1]
  simp only [hsh] at g2 g4
  rw [hrows] at g2
  refine ⟨_, g2, ?_⟩
  rw [hrows (trees files) p loc] at g4
  refine Eq.mp (congrArg _ (congrArg _ ?_)) g4
  rw [starts_trees ha (by simp) hs hs', filter_flatMap, flatMap_part]
  · congr 1
    funext f
    rw [List.filter_filter]
    congr 1
    funext e
    cases hp : p.matchTarget e.2.2 with
    | false => simp
    | true => simp [ha.narrower _ hp]
  · intro f _ hf
    rw [List.filter_eq_nil_iff]
    intro e he hm
    rw [← hpk f e he, matchTarget_package hm] at hf
    cases hf

/-- **C136** for `list-packages`: of the packages that are printed anyway, those that are asked for. -/
theorem C136_list_packages_partial (hh : Healthy m) (ha : Asks m ws p q) (hd : flags.depth = 0)
    (hs : Starts m flags .listPackages p ws found files) (hs' : Starts m flags .listPackages q ws found' files') :
    ∃ rows rows' : List (BazelPackage × Str),
      Prints m flags .listPackages q (note found') [c!"bazel-file", c!"package"]
        (rows'.map fun e => .row [e.2, e.1.toString]) ∧
      Prints m flags .listPackages p (note found) [c!"bazel-file", c!"package"]
        (rows.map fun e => .row [e.2, e.1.toString]) ∧
      rows.map (·.1) = (rows'.map (·.1)).filter p.matchPackage := by
  obtain ⟨rows, h1, h2, h3⟩ := C85_list_packages_partial hh hs (by omega)
  obtain ⟨rows', h4, h5, h6⟩ := C85_list_packages_partial hh hs' (by omega)
  refine ⟨rows, rows', h4, h1, ?_⟩
  have key : ∀ {pattern : BazelPattern} {fs : Loaded} {rs : List (BazelPackage × Str)},
      (∀ pkg name, (pkg, name) ∈ rs ↔ (∃ file, (pkg, file) ∈ fs ∧ file.name = name) ∨
        (pkg ∉ fs.map (·.1) ∧ (∃ t, Reached m ws pattern flags.depth.toNat fs t ∧ t.package = pkg) ∧
          DepGraph.pathForPackage (world m ws) pkg = some name)) →
      ∀ pkg, pkg ∈ rs.map (·.1) ↔ pkg ∈ (trees fs).map (·.1) := by
    intro pattern fs rs hr pkg
    rw [trees_keys]
    constructor
    · intro h
      obtain ⟨⟨_, name⟩, h7, rfl⟩ := List.mem_map.1 h
      rcases (hr _ _).1 h7 with ⟨file, h8, _⟩ | ⟨h8, ⟨t, h9, h10⟩, _⟩
      · exact List.mem_map.2 ⟨_, h8, rfl⟩
      · rw [show flags.depth.toNat = 0 by rw [hd]; rfl] at h9
        exact absurd (h10 ▸ root_package (reachedZero.1 h9)) h8
    · intro h
      obtain ⟨⟨_, file⟩, h7, rfl⟩ := List.mem_map.1 h
      exact List.mem_map.2 ⟨(_, file.name), (hr _ _).2 (.inl ⟨file, h7, rfl⟩), rfl⟩
  have hkeys : ∀ {l l' : List BazelPackage}, l.Pairwise (fun a b => Ordered.lt a b = true) →
      l'.Pairwise (fun a b => Ordered.lt a b = true) → (∀ x, x ∈ l ↔ x ∈ l') → l = l' := by
    intro l l' h7 h8 h9
    have := sorted_ext (l := l.map fun x => (x, ())) (l' := l'.map fun x => (x, ())) (by simpa [Function.comp_def, Ascending] using h7)
      (by simpa [Function.comp_def, Ascending] using h8) (by rintro ⟨x, u⟩; simpa using h9 x)
    simpa [Function.comp_def] using congrArg (List.map (·.1)) this
  refine hkeys h2 (h5.filter _) fun x => ?_
  rw [List.mem_filter, key h3, key h6, starts_trees ha (by simp) hs hs']
  simp only [List.mem_map, List.mem_filter]
  constructor
  · rintro ⟨f, ⟨h7, h8⟩, rfl⟩; exact ⟨⟨f, h7, rfl⟩, h8⟩
  · rintro ⟨⟨f, h7, rfl⟩, h8⟩; exact ⟨f, ⟨h7, h8⟩, rfl⟩

/-! ### Rules -/

/-- The rules that may be printed: package, how many are before it in the file, and the rule. -/
def printable (flags : Flags) (vs : List (BazelPackage × Node × Bool)) : List (BazelPackage × Nat × Query.Result) :=
  (vs.filter fun v => !flags.onlyErrors || v.2.2).flatMap fun v =>
    (Rules.report Rules.kwArgsIn [] true none (Rules.sites v.2.1)).zipIdx.map fun r => (v.1, r.2, r.1)

/-- How it is written. -/
def ruleText (loc : BazelPackage → Nat → Str) (x : BazelPackage × Nat × Query.Result) : Str × Node :=
  (Print.commentOf x.1 (loc x.1 x.2.1) x.2.2, x.2.2.node)

/-- Whether a rule is asked for. -/
def askedB (pattern : BazelPattern) (pkg : BazelPackage) (r : Query.Result) : Bool :=
  match pkg.qualifiedTarget r.name with
  | some t => pattern.matchTarget t
  | none => pattern.isRecursive && pattern.matchPackage pkg

theorem askedB_iff {pattern : BazelPattern} {pkg : BazelPackage} {r : Query.Result} :
    askedB pattern pkg r = true ↔ Print.Asked pattern pkg r := by
  unfold askedB Print.Asked
  cases pkg.qualifiedTarget r.name <;> simp

theorem print_written {pattern : BazelPattern} {ran : Ran} (hs : Starts m flags .print pattern ws found files)
    (hg : flags.grep = []) (hc : m.color = false) (h : runCommand m flags .print pattern = some ran) :
    ∃ chosen : BazelPackage × Nat × Query.Result → Bool,
      (∀ x, chosen x = true ↔ Print.Asked pattern x.1 x.2.2) ∧
      ran = ⟨0, Print.printStatements (((printable flags (views files)).filter chosen).map (ruleText m.callLoc)),
        note found⟩ := by
  obtain ⟨h1, found', files', h2, h3, h4⟩ := C98_print hs.workspace h
  have hop := hs.opened
  rw [show searched .print pattern = pattern from rfl, show evaluates flags .print = flags.elaborate by simp [evaluates]] at hop
  obtain ⟨rfl, rfl⟩ := openedFor_unique h2 hop
  rcases h4 with ⟨h4, _⟩ | ⟨find, h5, chosen, h6, _, h7⟩
  · exact absurd hg h4
  have hf : find = none := by
    cases h5 with
    | all => rfl
    | regex h => exact absurd hg h
  subst hf
  refine ⟨fun x => askedB pattern x.1 x.2.2, fun x => askedB_iff, ?_⟩
  have hrun : ran = ⟨ran.status, ran.out, ran.err⟩ := rfl
  rw [hrun, h1, h3, h7 hc]
  congr 2
  have e1 : (rulesFor m flags files').filter chosen =
      (rulesFor m flags files').filter fun x => askedB pattern x.1.package x.2.2 := by
    refine List.filter_congr fun x hx => ?_
    have := h6 x hx
    rw [Bool.eq_iff_iff, this, askedB_iff]
    simp
  rw [e1]
  unfold rulesFor Print.rulesIn printable views
  rw [List.filter_map, List.flatMap_map, List.flatMap_map]
  simp only [filter_flatMap, List.map_flatMap, List.filter_map, List.map_map]
  rfl

theorem asked_part (hn : Narrower p q) {pkg : BazelPackage} {r : Query.Result} (hr : p.isRecursive = true → q.isRecursive = true)
    (hq : q.matchPackage pkg = true) (h : Print.Asked p pkg r) : Print.Asked q pkg r := by
  unfold Print.Asked at h ⊢
  split at h
  · next t ht => exact hn t h
  · next ht => exact ⟨hr h.1, hq⟩

theorem asked_package {pkg : BazelPackage} {r : Query.Result} (h : Print.Asked p pkg r) : p.matchPackage pkg = true := by
  unfold Print.Asked at h
  split at h
  · next t ht => rw [← qualifiedTarget_package ht]; exact matchTarget_package h
  · exact h.2

/-- **C136** for `print`: of the rules that are printed anyway, those that are asked for; in the same order. Only the
names of files (`loc`) may be different. -/
theorem C136_print_partial (ha : Asks m ws p q) (hg : flags.grep = []) (hc : m.color = false)
    (hs : Starts m flags .print p ws found files) (hs' : Starts m flags .print q ws found' files')
    (loc : BazelPackage → Nat → Str) {ran ran' : Ran}
    (h : runCommand { m with callLoc := loc } flags .print p = some ran) (h' : runCommand m flags .print q = some ran') :
    ∃ (rules : List (BazelPackage × Nat × Query.Result)) (keep : BazelPackage × Nat × Query.Result → Bool),
      ran' = ⟨0, Print.printStatements (rules.map (ruleText m.callLoc)), note found'⟩ ∧
      ran = ⟨0, Print.printStatements ((rules.filter keep).map (ruleText loc)), note found⟩ ∧
      ∀ x, keep x = true ↔ Print.Asked p x.1 x.2.2 := by
  obtain ⟨chosen, h1, h2⟩ := print_written (m := { m with callLoc := loc }) (starts_same hs rfl rfl rfl rfl rfl) hg hc h
  obtain ⟨chosen', h3, h4⟩ := print_written hs' hg hc h'
  obtain ⟨names, hw⟩ := ha.within
  obtain ⟨steps, g1, g2, g3⟩ := ha.orderly
  have hq : ∀ v ∈ views files', q.matchPackage v.1 = true := by
    intro v hv
    obtain ⟨f, hf, rfl⟩ := List.mem_map.1 hv
    exact opened_matches g1 hs'.roots g3 hs'.opened f hf
  refine ⟨_, chosen, h4, ?_, h1⟩
  rw [h2]
  congr 3
  rw [starts_views ha (by simp) hs hs', List.filter_filter]
  have e1 : ∀ vs : List (BazelPackage × Node × Bool),
      (printable flags (vs.filter fun f => p.matchPackage f.1)).filter chosen = (printable flags vs).filter chosen := by
    intro vs
    unfold printable
    rw [List.filter_filter, filter_flatMap, filter_flatMap]
    have e2 : (vs.filter fun v => (!flags.onlyErrors || v.2.2) && p.matchPackage v.1) =
        (vs.filter fun v => !flags.onlyErrors || v.2.2).filter fun v => p.matchPackage v.1 := by
      rw [List.filter_filter]
      exact List.filter_congr fun v _ => Bool.and_comm _ _
    rw [e2, flatMap_part]
    intro v _ hv
    rw [List.filter_eq_nil_iff]
    intro x hx hx'
    obtain ⟨r, _, rfl⟩ := List.mem_map.1 hx
    rw [asked_package ((h1 _).1 hx')] at hv
    cases hv
  rw [e1]
  refine List.filter_congr fun x hx => ?_
  obtain ⟨v, hv, hx⟩ := List.mem_flatMap.1 hx
  obtain ⟨r, _, rfl⟩ := List.mem_map.1 hx
  cases hcx : chosen (v.1, r.2, r.1) with
  | false => simp
  | true =>
    have := (h3 (v.1, r.2, r.1)).2 (asked_part ha.narrower hw.recursive (hq v (List.mem_filter.1 hv).1) ((h1 _).1 hcx))
    simp [this]

/-! ### Dependencies -/

theorem starts_keys {pattern : BazelPattern} (hs : Starts m flags cmd pattern ws found files) :
    ((trees files).map (·.1)).Nodup := by
  rw [trees_keys]
  exact Ascending.nodup hs.opened.order

theorem lookup_part {fs : Files} (hn : (fs.map (·.1)).Nodup) {pkg : BazelPackage} :
    lookup (fs.filter fun f => p.matchPackage f.1) pkg = if p.matchPackage pkg then lookup fs pkg else none := by
  induction fs with
  | nil => simp [lookup]
  | cons f fs ih =>
    rw [List.map_cons, List.nodup_cons] at hn
    rw [List.filter_cons]
    by_cases hk : f.1 = pkg
    · subst hk
      cases hp : p.matchPackage f.1 with
      | false => simp only [Bool.false_eq_true, if_false]; rw [ih hn.2, if_neg (by simp [hp])]
      | true => simp [lookup_cons]
    · cases hp : p.matchPackage f.1 with
      | false => simp only [Bool.false_eq_true, if_false]; rw [ih hn.2, lookup_cons, if_neg hk]
      | true => simp only [if_true]; rw [lookup_cons, if_neg hk, ih hn.2, lookup_cons, if_neg hk]

/-- **C136** for `depends-on`, if dependencies are not followed. -/
theorem C136_depends_on_partial (hh : Healthy m) (ha : Asks m ws p q) (hd : flags.depth = 0)
    (hs : Starts m flags .dependsOn p ws found files) (hs' : Starts m flags .dependsOn q ws found' files') :
    ∃ es, Prints m flags .dependsOn q (note found') [c!"library", c!"depends-on"] (grouped es) ∧
      Prints m flags .dependsOn p (note found) [c!"library", c!"depends-on"]
        (grouped (es.filter fun e => p.matchTarget e.1)) := by
  obtain ⟨es, h1, h2, h3⟩ := C82_depends_on hh hs (by omega)
  obtain ⟨es', h4, h5, h6⟩ := C82_depends_on hh hs' (by omega)
  refine ⟨es', h4, ?_⟩
  have : es = es'.filter fun e => p.matchTarget e.1 := by
    refine sorted_ext h2 (List.pairwise_map.2 ((List.pairwise_map.1 h5).filter _)) ?_
    rintro ⟨t, ds⟩
    rw [List.mem_filter, h3, h6, show flags.depth.toNat = 0 by rw [hd]; rfl, reachedZero, reachedZero,
      starts_trees ha (by simp) hs hs', root_part ha.narrower]
    have hdef : ∀ r, p.matchTarget t = true → Root q (trees files') t →
        (Defines (world m ws) ((trees files').filter fun f => p.matchPackage f.1) t r ↔
          Defines (world m ws) (trees files') t r) := by
      intro r hm _
      unfold Defines GraphSpec.treeOf
      rw [lookup_part (starts_keys hs'), if_pos (matchTarget_package hm)]
    constructor
    · rintro ⟨⟨h7, h8⟩, r, h9, h10⟩
      exact ⟨⟨h7, r, (hdef r h8 h7).1 h9, h10⟩, h8⟩
    · rintro ⟨⟨h7, r, h9, h10⟩, h8⟩
      exact ⟨⟨h7, h8⟩, r, (hdef r h8 h7).2 h9, h10⟩
  rw [← this]
  exact h1

/-- Packages are the same, no matter whether they are found for a pattern or because something depends on them. -/
def Consistent (m : Machine) (ws : Workspace.Map) (files : Loaded) : Prop :=
  ∀ f ∈ trees files, DepGraph.load (world m ws) f.1 = some (some f.2)

/-- **C136** for `depends-on`, if dependencies are followed: whoever asks for less, is told a part of the lines. -/
theorem C136_depends_on_further_partial (hh : Healthy m) (ha : Asks m ws p q) (hd : 0 ≤ flags.depth)
    (hs : Starts m flags .dependsOn p ws found files) (hs' : Starts m flags .dependsOn q ws found' files')
    (hc : Consistent m ws files') :
    ∃ es es', Prints m flags .dependsOn q (note found') [c!"library", c!"depends-on"] (grouped es') ∧
      Prints m flags .dependsOn p (note found) [c!"library", c!"depends-on"] (grouped es) ∧ es.Sublist es' := by
  obtain ⟨es, h1, h2, h3⟩ := C82_depends_on hh hs hd
  obtain ⟨es', h4, h5, h6⟩ := C82_depends_on hh hs' hd
  refine ⟨es, es', h4, h1, ?_⟩
  have htree : ∀ pkg, GraphSpec.treeOf (world m ws) (trees files) pkg = GraphSpec.treeOf (world m ws) (trees files') pkg := by
    intro pkg
    unfold GraphSpec.treeOf
    rw [starts_trees ha (by simp) hs hs', lookup_part (starts_keys hs')]
    cases hp : p.matchPackage pkg with
    | true => rfl
    | false =>
      simp only [Bool.false_eq_true, if_false]
      cases hl : lookup (trees files') pkg with
      | none => rfl
      | some ast => rw [show DepGraph.load (world m ws) pkg = some (some ast) from hc _ (lookup_mem hl)]
  have hdef : ∀ t r, Defines (world m ws) (trees files) t r ↔ Defines (world m ws) (trees files') t r := by
    intro t r
    unfold Defines
    rw [htree]
  have hreach : ∀ n t, ReachIn (world m ws) p (trees files) n t → ReachIn (world m ws) q (trees files') n t := by
    intro n t h
    induction h with
    | root h =>
      rw [starts_trees ha (by simp) hs hs', root_part ha.narrower] at h
      exact .root h.1
    | step _ he ih =>
      obtain ⟨r, h7, h8⟩ := he
      exact .step ih ⟨r, (hdef _ _).1 h7, h8⟩
  have hsub : es = es'.filter fun e => decide (e ∈ es) := by
    refine sorted_ext h2 (List.pairwise_map.2 ((List.pairwise_map.1 h5).filter _)) ?_
    rintro ⟨t, ds⟩
    rw [List.mem_filter, decide_eq_true_eq]
    refine ⟨fun h => ⟨?_, h⟩, And.right⟩
    obtain ⟨⟨n, h7, h8⟩, r, h9, h10⟩ := (h3 t ds).1 h
    exact (h6 t ds).2 ⟨⟨n, h7, hreach n t h8⟩, r, (hdef t r).1 h9, h10⟩
  rw [hsub]
  exact List.filter_sublist

/-- **C136** for `has-dependents`, for all projects: everything is searched anyway. -/
theorem C136_has_dependents_partial (hh : Healthy m) (hn : Narrower p q)
    (hs : Starts m flags .hasDependents q ws found files) :
    ∃ es, Prints m flags .hasDependents q (note found) [c!"library", c!"has-dependent"] (grouped es) ∧
      Prints m flags .hasDependents p (note found) [c!"library", c!"has-dependent"]
        (grouped (es.filter fun e => p.matchTarget e.1)) := by
  have hs' : Starts m flags .hasDependents p ws found files := ⟨hs.workspace, hs.roots, hs.opened⟩
  have hdep : 0 ≤ depthOf flags .hasDependents := by
    unfold depthOf intMax
    by_cases h : flags.depth ≤ 0
    · simp [h]
    · simp [h]; omega
  obtain ⟨l, now, g, h1, _⟩ := follow_spec hh (starts_opened hh hs (by simp [needsProject])) rfl hdep
  have h2 : Commands.follow m ws flags .hasDependents p files = some (l, g) := h1
  refine ⟨g.hasDependents.filter fun e => q.matchTarget e.1, prints_of hh hs (by simp [needsProject]) h1 (by simp) rfl
    (grouped_fits _ _ _), prints_of hh hs' (by simp [needsProject]) h2 (by simp) ?_ (grouped_fits _ _ _)⟩
  rw [List.filter_filter]
  simp only [perform, oneToN, grouped]
  congr 4
  funext e
  cases hp : p.matchTarget e.1 with
  | false => simp
  | true => simp [hn _ hp]

/-- **C136** for `aliased-by`: whoever asks for less, gets less lines; and in these the aliases that are in packages
that are asked for. -/
theorem C136_aliased_by_partial (hh : Healthy m) (ha : Asks m ws p q) (hd : flags.depth = 0)
    (hs : Starts m flags .aliasedBy p ws found files) (hs' : Starts m flags .aliasedBy q ws found' files') :
    ∃ es es', Prints m flags .aliasedBy q (note found') [c!"actual", c!"aliased-by"] (grouped es') ∧
      Prints m flags .aliasedBy p (note found) [c!"actual", c!"aliased-by"] (grouped es) ∧
      ∀ t as, (t, as) ∈ es ↔ p.matchTarget t = true ∧ as ≠ [] ∧
        ∃ as', (t, as') ∈ es' ∧ as = as'.filter fun a => p.matchPackage a.package := by
  obtain ⟨es, h1, _, h3⟩ := C89_aliased_by_partial hh hs
  obtain ⟨es', h4, _, h6⟩ := C89_aliased_by_partial hh hs'
  refine ⟨es, es', h4, h1, fun t as => ?_⟩
  have hsh : ∀ (pattern : BazelPattern) t, shown flags pattern t = pattern.matchTarget t := by
    intro pattern t; simp [shown, hd]
  have hal : aliasesFor (trees files) t = (aliasesFor (trees files') t).filter fun a => p.matchPackage a.package := by
    rw [starts_trees ha (by simp) hs hs']
    unfold aliasesFor
    rw [filter_flatMap]
    have hpk : ∀ f : BazelPackage × Node, ∀ a ∈ (rulesOf [c!"alias"] f.2).filterMap (fun r =>
        if r.hasActual = true ∧ BazelTarget.parseFrom r.actual f.1 = some t then f.1.qualifiedTarget r.name else none), a.package = f.1 := by
      intro f a ha
      obtain ⟨r, _, hr⟩ := List.mem_filterMap.1 ha
      split at hr
      · exact qualifiedTarget_package hr
      · cases hr
    induction trees files' with
    | nil => rfl
    | cons f fs ih =>
      rw [List.filter_cons, List.flatMap_cons, ← ih]
      cases hp : p.matchPackage f.1 with
      | false =>
        have := List.filter_eq_nil_iff.2 fun (a : BazelTarget) ha => show ¬ p.matchPackage a.package = true by
          rw [hpk f a ha, hp]; simp
        rw [this]
        simp
      | true =>
        have := List.filter_eq_self.2 fun (a : BazelTarget) ha => show p.matchPackage a.package = true by
          rw [hpk f a ha, hp]
        rw [this]
        simp
  rw [h3, hal, hsh]
  constructor
  · rintro ⟨rfl, h7, h8⟩
    refine ⟨h8, h7, _, (h6 t _).2 ⟨rfl, ?_, by rw [hsh]; exact ha.narrower t h8⟩, rfl⟩
    intro h; rw [h] at h7; exact h7 rfl
  · rintro ⟨h7, h8, as', h9, rfl⟩
    obtain ⟨rfl, _, _⟩ := (h6 t as').1 h9
    exact ⟨rfl, h8, h7⟩

/-! ### Without these assumptions -/

/-- A directory that is not looked into, unless it is asked for. -/
def tmpDir : List (Str × Str) := [(c!"_tmp/BUILD", c!"cc_library(name=\"a\",deps=[\"//_tmp:b\"])")]

/-- There is something to say if one asks for the target, but not if one asks for everything. -/
theorem C136_counterexample : ¬ C136_statement := by
  intro h
  have hc : ∀ e ∈ tmpDir, cleanText e.2 = true := by decide +kernel
  have hw : workspaceOf (disk tmpDir) = some [] := by decide +kernel
  obtain ⟨found, files, hs, _⟩ := disk_starts hc hw {} .canonicalizeDeps (pat c!"//_tmp:a") (by decide +kernel)
    (by decide)
  obtain ⟨found', files', hs', _⟩ := disk_starts hc hw {} .canonicalizeDeps everything (by decide +kernel) (by decide)
  have hn : Narrower (pat c!"//_tmp:a") everything := by
    intro t ht
    have e1 : (pat c!"//_tmp:a").matchTarget t = (t == ⟨⟨[], c!"_tmp"⟩, c!"a"⟩) := rfl
    rw [e1, beq_iff_eq] at ht
    rw [ht]
    decide
  obtain ⟨edits, h1, h2⟩ := h _ _ _ _ _ _ _ _ _ (disk_healthy hc) hn hs hs'
  have r1 : runCommand (disk tmpDir) {} .canonicalizeDeps everything =
      some ⟨0, [], c!"Pattern did not match any dir with BUILD file.\n"⟩ := by decide +kernel
  have r2 : (runCommand (disk tmpDir) {} .canonicalizeDeps (pat c!"//_tmp:a")).map (·.status) = some 3 := by
    decide +kernel
  unfold Suggests at h1 h2
  rw [r1] at h1
  rw [h2] at r2
  have he : edits = [] := by
    by_cases he : edits = []
    · exact he
    · rw [if_neg he] at h1; cases h1
  subst he
  cases r2

/-! ### Examples -/

/-- A check for a pattern of the main project; `dirs` are the directories, with the names on the way. -/
def orderlyAt (t : Tree) (start path : Str) (dirs : List (List Str × Str)) : Bool :=
  decide (([], start) ∈ dirs) &&
  dirs.all (fun x => (entriesB t x.2).all fun e =>
    (directoryInode t (Workspace.join x.2 e.name) e).isNone ||
      decide ((x.1 ++ [e.name], Workspace.join x.2 e.name) ∈ dirs)) &&
  dirs.all (fun x => (entriesB t x.2).all fun e => dirs.all fun y => (entriesB t y.2).all fun e' =>
    (directoryInode t (Workspace.join x.2 e.name) e).isNone ||
      decide (directoryInode t (Workspace.join x.2 e.name) e ≠ directoryInode t (Workspace.join y.2 e'.name) e') ||
      decide (Workspace.join x.2 e.name = Workspace.join y.2 e'.name)) &&
  dirs.all (fun x => decide ((below path x.1).head? ≠ some '.')) &&
  dirs.all fun x => (entriesB t x.2).all fun e => dirs.all fun y => (entriesB t y.2).all fun e' =>
    !Collect.isBuildFile e.name || !Collect.isBuildFile e'.name || decide (below path x.1 ≠ below path y.1) ||
      decide (Workspace.join x.2 e.name = Workspace.join y.2 e'.name)

theorem orderlyAt_sound {m : Machine} {start path : Str} {dirs : List (List Str × Str)} (hn : Named m.tree)
    {pattern : BazelPattern} (hp : pattern.pattern.package = ⟨[], path⟩) (htidy : Tidy path)
    (hstart : start = if path = [] then c!"." else path)
    (h : orderlyAt m.tree start path dirs = true) : Orderly m [] pattern dirs.length := by
  unfold orderlyAt at h
  simp only [Bool.and_eq_true, List.all_eq_true, decide_eq_true_eq, Bool.or_eq_true, Bool.not_eq_true',
    Option.isNone_iff_eq_none] at h
  obtain ⟨⟨⟨⟨c1, c2⟩, c3⟩, c4⟩, c5⟩ := h
  have hst : ∀ s, Start [] pattern.pattern.package s → s = start := by
    intro s hs
    rw [hp] at hs
    cases hs with
    | top => rw [hstart, if_pos rfl]
    | main h => rw [hstart, if_neg h]
    | external h => exact absurd rfl h
  have hb : ∀ names d, Below m.tree m.symlink start names d → (names, d) ∈ dirs := by
    intro names d hb
    induction hb with
    | start => exact c1
    | sub _ hin hd _ ih =>
      obtain ⟨h1, rfl⟩ := entriesB_of hin
      rcases c2 _ ih _ h1 with h2 | h2
      · rw [isDir_iff] at hd; rw [hd] at h2; cases h2
      · exact h2
  have hfile : ∀ names pkg file, BuildFileOf m.tree m.symlink [] pattern names pkg file →
      ∃ d e, (names, d) ∈ dirs ∧ e ∈ entriesB m.tree d ∧ file = Workspace.join d e.name ∧
        Collect.isBuildFile e.name = true ∧ pkg = ⟨[], below path names⟩ := by
    rintro names pkg file ⟨s, dir, e, hs, hbel, _, hin, _, hname, rfl⟩
    obtain rfl := hst s hs
    obtain ⟨h1, rfl⟩ := entriesB_of hin
    refine ⟨dir, e, hb _ _ hbel, h1, rfl, ?_, by rw [hp]⟩
    rcases hname with h | h <;> · rw [h]; decide
  refine ⟨hn, by rw [hp]; exact htidy, ?_, ?_, ?_, ?_⟩
  · intro s hs
    obtain rfl := hst s hs
    exact ⟨dirs.map (·.2), by simp, fun names d h => List.mem_map.2 ⟨_, hb _ _ h, rfl⟩⟩
  · intro s hs n₁ d₁ e₁ p₁ n₂ d₂ e₂ p₂ i b1 i1 k1 b2 i2 k2 _
    obtain rfl := hst s hs
    obtain ⟨h1, rfl⟩ := entriesB_of i1
    obtain ⟨h2, rfl⟩ := entriesB_of i2
    rw [isDir_iff] at k1 k2
    rcases c3 _ (hb _ _ b1) _ h1 _ (hb _ _ b2) _ h2 with (h3 | h3) | h3
    · simp only [] at h3; rw [k1] at h3; cases h3
    · simp only [] at h3; rw [k1, k2] at h3; exact absurd rfl h3
    · exact h3
  · intro names pkg file hbf _
    obtain ⟨d, e, h1, _, _, _, rfl⟩ := hfile _ _ _ hbf
    exact c4 _ h1
  · intro names pkg file names' file' h1 h2
    obtain ⟨d, e, a1, a2, rfl, a3, a4⟩ := hfile _ _ _ h1
    obtain ⟨d', e', b1, b2, rfl, b3, b4⟩ := hfile _ _ _ h2
    rcases c5 _ a1 _ a2 _ b1 _ b2 with ((h3 | h3) | h3) | h3
    · rw [a3] at h3; cases h3
    · rw [b3] at h3; cases h3
    · rw [a4] at b4; simp only [BazelPackage.mk.injEq, true_and] at b4; exact absurd b4 h3
    · exact h3

theorem stripBack_dot (c : Char) (hc : c ≠ '/') (x : Str) :
    stripBack '/' ('.' :: '/' :: c :: x) = '.' :: '/' :: stripBack '/' (c :: x) ∧
      ∃ y, stripBack '/' (c :: x) = c :: y := by
  have h : ∃ y, stripBack '/' (c :: x) = c :: y := by
    rw [stripBack]
    cases stripBack '/' x with
    | nil => exact ⟨[], by simp [hc]⟩
    | cons d y => exact ⟨_, rfl⟩
  obtain ⟨y, hy⟩ := h
  refine ⟨?_, y, hy⟩
  rw [stripBack, stripBack, hy]

/-- With or without `./`. -/
theorem along_dot (c : Char) (hc : c ≠ '/') (names : List Str) : ∀ x : Str,
    ∃ y, along (c :: x) names = c :: y ∧ along ('.' :: '/' :: c :: x) names = '.' :: '/' :: c :: y := by
  induction names with
  | nil => exact fun x => ⟨x, rfl, rfl⟩
  | cons n names ih =>
    intro x
    obtain ⟨h1, y, h2⟩ := stripBack_dot c hc x
    have e1 : Workspace.join (c :: x) n = c :: (y ++ '/' :: n) := by simp [Workspace.join, h2]
    have e2 : Workspace.join ('.' :: '/' :: c :: x) n = '.' :: '/' :: c :: (y ++ '/' :: n) := by
      simp [Workspace.join, h1, h2]
    obtain ⟨z, h3, h4⟩ := ih (y ++ '/' :: n)
    refine ⟨z, ?_, ?_⟩
    · rw [← h3, ← e1]; rfl
    · rw [← h4, ← e2]; rfl

/-- Two packages, in which dependencies are written longer than needed. -/
def twoParts : List (Str × Str) :=
  [(c!"p/BUILD", c!"cc_library(name=\"a\",deps=[\"//p:c\",\"//q:b\"])\ncc_library(name=\"c\",deps=[\"//p:d\"])"),
   (c!"q/BUILD", c!"cc_library(name=\"b\",deps=[\"//q:d\"])")]

theorem twoParts_named : Named (disk twoParts).tree := by
  intro d es h
  have hd : (disk twoParts).tree.list d = (if d = c!"." then some [⟨c!"p", 1, .dir⟩, ⟨c!"q", 2, .dir⟩]
      else some (if plainPath d = c!"p" ∨ plainPath d = c!"q" then [⟨c!"BUILD", 99, .other⟩] else [])) := by
    have e1 : (disk twoParts).tree.list d = if d = c!"." then some [⟨c!"p", 1, .dir⟩, ⟨c!"q", 2, .dir⟩]
        else some ((twoParts.filter fun e => dirName e.1 = plainPath d).map fun e =>
          ⟨e.1.drop ((dirName e.1).length + 1), 99, .other⟩) := rfl
    rw [e1]
    have d1 : dirName c!"p/BUILD" = c!"p" := by decide
    have d2 : dirName c!"q/BUILD" = c!"q" := by decide
    simp only [twoParts, List.filter_cons, List.filter_nil, d1, d2]
    by_cases h1 : plainPath d = c!"p"
    · rw [h1]; rfl
    by_cases h2 : plainPath d = c!"q"
    · rw [h2]; rfl
    · simp only [if_neg (show ¬ decide (c!"p" = plainPath d) = true by simpa using fun h => h1 h.symm),
        if_neg (show ¬ decide (c!"q" = plainPath d) = true by simpa using fun h => h2 h.symm), h1, h2]
      rfl
  rw [hd] at h
  split at h
  · cases h; decide
  · split at h
    · cases h; decide
    · cases h; simp

theorem twoParts_asks : Asks (disk twoParts) [] (pat c!"//p:a") everything := by
  have hstart : ∀ s, Start [] (pat c!"//p:a").pattern.package s → s = c!"p" := by
    intro s hs
    have : (pat c!"//p:a").pattern.package = ⟨[], c!"p"⟩ := by decide
    rw [this] at hs
    cases hs with
    | main h => rfl
    | external h => exact absurd rfl h
  have hstart' : ∀ s, Start [] everything.pattern.package s → s = c!"." := by
    intro s hs
    have : everything.pattern.package = ⟨[], []⟩ := by decide
    rw [this] at hs
    cases hs with
    | top => rfl
    | main h => exact absurd rfl h
    | external h => exact absurd rfl h
  refine ⟨?_, ⟨[c!"p"], ?_⟩, 3, by decide, ?_, ?_⟩
  · intro t ht
    have e1 : (pat c!"//p:a").matchTarget t = (t == ⟨⟨[], c!"p"⟩, c!"a"⟩) := rfl
    rw [e1, beq_iff_eq] at ht
    rw [ht]
    decide
  · refine ⟨by decide, by decide, by decide, .inr (by decide), by decide, fun h => ?_, by decide, ?_, ?_⟩
    · rw [show (pat c!"//p:a").kind = .exact from rfl] at h; cases h
    · intro s s' h h'
      obtain rfl := hstart s h
      obtain rfl := hstart' s' h'
      refine .inr (.sub (names := []) (e := ⟨c!"p", 1, .dir⟩) (i := 1) .start
        (in_iff.2 ⟨⟨_, rfl, by decide +kernel⟩, by decide, rfl⟩) (.plain rfl) rfl)
    · intro s s' h h' names
      obtain rfl := hstart s h
      obtain rfl := hstart' s' h'
      obtain ⟨y, h1, h2⟩ := along_dot 'p' (by decide) names []
      have h3 : along (along c!"." [c!"p"]) names = '.' :: '/' :: 'p' :: y := h2
      rw [h3, h1]
      have hp : plainPath ('.' :: '/' :: 'p' :: y) = plainPath ('p' :: y) := by
        simp [plainPath]
      simp only [disk, hp]
      simp
  · exact orderlyAt_sound (start := c!"p") (path := c!"p") (dirs := [([], c!"p"), ([], c!"p"), ([], c!"p")])
      twoParts_named (by decide) (by unfold Tidy; decide) (by decide) (by decide +kernel)
  · exact orderlyAt_sound (start := c!".") (path := []) (dirs := [([], c!"."), ([c!"p"], c!"./p"), ([c!"q"], c!"./q")])
      twoParts_named (by decide) (by unfold Tidy; decide) (by decide) (by decide +kernel)

/-- Three dependencies are written too long; one of them is of the target that is asked for. -/
example : runCommand (disk twoParts) {} .canonicalizeDeps everything =
      some ⟨3, c!"buildozer 'replace deps //p:c :c' //p:a\n" ++ c!"buildozer 'replace deps //p:d :d' //p:c\n" ++
        c!"buildozer 'replace deps //q:d :d' //q:b\n", []⟩ ∧
    runCommand (disk twoParts) {} .canonicalizeDeps (pat c!"//p:a") =
      some ⟨3, c!"buildozer 'replace deps //p:c :c' //p:a\n", []⟩ ∧
    (runCommand (disk twoParts) {} .print (pat c!"//q:b")).map (·.out) =
      some c!"#  //q:b\ncc_library(\n    name = \"b\",\n    deps = [\"//q:d\"]\n)\n" ∧
    (runCommand (disk twoParts) {} .dependsOn everything).map (·.out) =
      some c!"//p:a //p:c\n//p:a //q:b\n//p:c //p:d\n//q:b //q:d\n" ∧
    (runCommand (disk twoParts) {} .dependsOn (pat c!"//p:a")).map (·.out) =
      some c!"//p:a //p:c\n//p:a //q:b\n" ∧
    (runCommand (disk twoParts) {} .listPackages everything).map (·.out) =
      some c!"./p/BUILD //p\n./q/BUILD //q\n" ∧
    (runCommand (disk twoParts) {} .listPackages (pat c!"//p:a")).map (·.out) = some c!"p/BUILD //p\n" ∧
    (runCommand (disk twoParts) {} .hasDependents everything).map (·.out) =
      some c!"//p:c //p:a\n//p:d //p:c\n//q:b //p:a\n//q:d //q:b\n" ∧
    (runCommand (disk twoParts) {} .hasDependents (pat c!"//p:c")).map (·.out) = some c!"//p:c //p:a\n" := by
  decide +kernel

end Props
end Bant
